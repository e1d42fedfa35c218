import Verif.Lemmas.TwinOn
import Verif.Lemmas.Frequencies
import Verif.Props.Shuffle
import Verif.Props.ProperScoring

/-!
# The number of members

C127: the ensemble verifier gives the same results for ensembles of different size with the same relative frequencies.
-/

set_option linter.unusedSectionVars false

namespace Props
open Np NDArr Spec Model Lemmas

variable {K : Type} [Field K] [LinearOrder K] [IsStrictOrderedRing K] [FloorSemiring K]
variable {A : Type} {I : ArgInfo A} {mids : FS (PyVal K) → Path → List (FS (PyVal K))} {c : Cfg K} {emb : A → Arg K}

/-- two validated ensembles that have the same frequencies -/
structure Balanced (ax : Int) (x y : EnsX K) : Prop where
  axis : x.axis = some ax
  axis' : y.axis = some ax
  o : y.o = x.o
  fc : y.fc = x.fc
  axisOK : AxisOK x.f.shape.length ax
  shape : x.o.shape = posShape x.f.shape ax
  some : (posShape x.f.shape ax).prod ≠ 0
  f : SameFrequencies ax x.f y.f

/-- the settings look at the shares only -/
structure CfgShareFree (c : Cfg K) : Prop where
  crps : ScoreShareFree c.crpsEns
  kde : c.method = .kde → TailShareFree c.kde

/-- every request but `rank_hist()` -/
def NotRanks : Req A → Prop
  | .slot s => s ≠ .rankHist
  | .rmse => True

variable {ax : Int} {x y : EnsX K}

theorem balanced_metric (hc : CfgShareFree c) (h : Balanced ax x y) (avg : PyAxis) (boot : PyBoot) (r : Req A) (hr : NotRanks r) :
    metricProg .ensemble I (ensPrims c emb) y avg boot r = metricProg .ensemble I (ensPrims c emb) x avg boot r := by
  have e1 : (ensPrims c emb).fDet y = (ensPrims c emb).fDet x := by simp only [ensPrims, h.fc]
  have e2 : (ensPrims c emb).errorOf y = (ensPrims c emb).errorOf x := by
    simp only [ensPrims, basePrims, h.o]
  have e3 : (ensPrims c emb).sqErrorOf y = (ensPrims c emb).sqErrorOf x := by
    simp only [ensPrims, basePrims, h.o]
  have e4 : (ensPrims c emb).abErrorOf y = (ensPrims c emb).abErrorOf x := by
    simp only [ensPrims, basePrims, h.o]
  have e5 : (ensPrims c emb).crps y = (ensPrims c emb).crps x := by
    simp only [ensPrims, EnsX.ax, h.axis, h.axis', h.o, bind, Except.bind,
      hc.crps x.o x.f y.f ax h.axisOK h.shape h.some h.f]
  have e6 : ((ensPrims c emb).ens y >>= (ensPrims c emb).spreadOf y) =
      ((ensPrims c emb).ens x >>= (ensPrims c emb).spreadOf x) := by
    simp only [ensPrims, EnsX.ax, h.axis, h.axis', bind, Except.bind, PyVal.asNum,
      ensSpread_share c.skipNan h.f h.axisOK]
  have e8 : (ensPrims c emb).variance y = (ensPrims c emb).variance x := by
    simp only [ensPrims, EnsX.ax, h.axis, h.axis', bind, Except.bind, ensVariance_share h.f h.axisOK]
  have e9 : (ensPrims c emb).cdfBelow y = (ensPrims c emb).cdfBelow x := by
    funext b
    simp only [ensPrims, EnsX.ax, h.axis, h.axis', bind, Except.bind, ensToProb,
      ensToProbBelow_share c.workers c.method c.kde _ hc.kde h.f h.axisOK h.some]
  have e10 : (ensPrims c emb).binarize y = (ensPrims c emb).binarize x := by
    simp only [ensPrims, basePrims, h.o]
  have e11 : (ensPrims c emb).iouDeterm y = (ensPrims c emb).iouDeterm x := by
    simp only [ensPrims, basePrims, h.o]
  have e12 : (ensPrims c emb).corr y = (ensPrims c emb).corr x := by
    simp only [ensPrims, basePrims, h.o]
  have e13 : (ensPrims c emb).corrBoot y = (ensPrims c emb).corrBoot x := by
    simp only [ensPrims, basePrims, h.o]
  have cdf : ∀ o b, cdfBody .ensemble I (ensPrims c emb) y o b = cdfBody .ensemble I (ensPrims c emb) x o b := by
    intro o b
    simp only [cdfBody, e9]
  have prob : ∀ o b k, withProb .ensemble I (ensPrims c emb) y o b k = withProb .ensemble I (ensPrims c emb) x o b k := by
    intro o b k
    simp only [withProb, cdfCall, cdf, e10]
  have sq : sqBody .ensemble I (ensPrims c emb) y = sqBody .ensemble I (ensPrims c emb) x := by
    simp only [sqBody, withDet, e1, e3]
  cases r with
  | rmse => simp only [metricProg, sq]
  | slot s =>
    have hs : s ≠ .rankHist := hr
    have hb : slotBody .ensemble I (ensPrims c emb) y avg boot s = slotBody .ensemble I (ensPrims c emb) x avg boot s := by
      cases s with
      | error => simp only [slotBody, withDet, e1, e2]
      | sqError => simp only [slotBody, sq]
      | abError => simp only [slotBody, withDet, e1, e4]
      | crps => simp only [slotBody, e5]
      | spread => simp only [slotBody, e6]
      | rankHist => exact absurd rfl hs
      | variance => simp only [slotBody, varBody, e8]
      | fDeterm => simp only [slotBody, fDetBody, e1]
      | probToEns => rfl
      | pit => rfl
      | corr => simp only [slotBody, fDetCall, fDetBody, e1, e12, e13]
      | brierDecomp o b => simp only [slotBody, prob]
      | brier o b => simp only [slotBody, brierBody, cdfCall, cdf, e10]
      | cdf o b => simp only [slotBody, cdf]
      | roc o b => simp only [slotBody, prob]
      | sharpness o b => simp only [slotBody, cdfCall, cdf]
      | iouDeterm o b => simp only [slotBody, withDet, e1, e11]
      | iouProb o b => simp only [slotBody, prob]
      | reliability n o b => simp only [slotBody, prob]
      | ss n => simp only [slotBody, varBody, e8, sq]
    simp only [metricProg, hb]


theorem popAt_pos {s : List Nat} (hax : AxisOK s.length ax) : popAt s ax = .ok (posShape s ax) := by
  unfold popAt
  rw [if_pos (show -(s.length : Int) ≤ ax ∧ ax < s.length from hax)]
  rfl

theorem validate_share {f g : NDArr (Fl K)} (h : SameFrequencies ax f g) (hax : AxisOK f.shape.length ax) (s : List Nat) :
    validateEnsembleAxis g.shape s (some ax) = validateEnsembleAxis f.shape s (some ax) := by
  unfold validateEnsembleAxis
  simp only [bind, Except.bind, pure, Except.pure, popAt_pos hax, popAt_pos (h.axis_ok hax), h.positions, h.rank]

theorem balanced_check (h : Balanced ax x y) : ((ensPrims c emb).check y).1 = ((ensPrims c emb).check x).1 ∧
    Balanced ax ((ensPrims c emb).check x).2 ((ensPrims c emb).check y).2 := by
  simp only [ensPrims, h.axis, h.axis', h.o, validate_share h.f h.axisOK]
  cases hv : validateEnsembleAxis x.f.shape x.o.shape (some ax) with
  | error e => exact ⟨rfl, h⟩
  | ok a =>
    cases validateEnsembleAxis_some hv
    exact ⟨rfl, ⟨rfl, rfl, rfl, h.fc, h.axisOK, h.shape, h.some, h.f⟩⟩

theorem indist_balanced (hc : CfgShareFree c) :
    IndistOn .ensemble I (ensPrims c emb) (ensPrims c emb) (Balanced (K := K) ax) NotRanks :=
  ⟨fun _ _ h avg boot r hr => balanced_metric hc h avg boot r hr, fun _ _ h => balanced_check h⟩

/-- **C127**: give an ensemble verifier with a stated ensemble axis another ensemble, maybe of another size, in which
every value is held by the same share of the members at every position; for example every member twice.  The constructor
accepts it with the same effects, and after any common history of metric calls (all but `rank_hist()`) and setters every
such call returns or raises the same and leaves the same files and the same state of the random generator.  The functions
taken from outside (collapsing function, ensemble CRPS, density estimate) must look at the shares only themselves. -/
theorem C127_history {oi o : Obj (EnsX K)} {w w' : World (PyVal K)}
    (h : construct (ensPrims c emb) mids oi w = (.ok o, w')) (hc : CfgShareFree c) (hcol : ShareFree oi.ext.collapse)
    (hax : oi.ext.axis = some ax) (hne : oi.ext.o.shape.prod ≠ 0) {g : NDArr (Fl K)}
    (hg : SameFrequencies ax oi.ext.f g) :
    ∃ u, construct (ensPrims c emb) mids (withForecasts g oi) w = (.ok u, w') ∧
      ∀ ops : List (Op (EnsX K) A), (∀ op ∈ ops, CommonIn NotRanks op) → ∀ w1,
        (runOps .ensemble I (ensPrims c emb) mids ops u w1).2 = (runOps .ensemble I (ensPrims c emb) mids ops o w1).2 ∧
        ∀ op : Op (EnsX K) A, CommonIn NotRanks op → ∀ w2,
          (step .ensemble I (ensPrims c emb) mids op (runOps .ensemble I (ensPrims c emb) mids ops u w1).1 w2).1 =
            (step .ensemble I (ensPrims c emb) mids op (runOps .ensemble I (ensPrims c emb) mids ops o w1).1 w2).1 := by
  obtain ⟨a, fc, h1, h2, h3, h4, -, h6, -⟩ := C75_construct_ens h
  have haa : a = ax := h6 ax hax
  subst haa
  have hok := h1.axisOK
  rw [h3] at hok
  have hshape := h1.shape
  rw [h3, h4] at hshape
  have hpos : (posShape oi.ext.f.shape a).prod ≠ 0 := by rw [← hshape]; exact hne
  have hcoll : oi.ext.collapse g a = .ok fc := (hcol _ _ a hok hpos hg).trans h2
  obtain ⟨u, hu, ht⟩ : ∃ u, construct (ensPrims c emb) mids (withForecasts g oi) w = (.ok u, w') ∧ Twin (Balanced a) o u := by
    rcases hv : validate (ensPrims c emb) mids oi w with ⟨r, o1, w1⟩
    have hR : Twin (fun x y => (x.axis = some a ∧ y.axis = some a) ∧ y.o = x.o ∧ y.collapse = oi.ext.collapse ∧
        x.f = oi.ext.f ∧ y.f = g) oi (withForecasts g oi) := ⟨rfl, rfl, rfl, rfl, ⟨hax, hax⟩, rfl, rfl, rfl, rfl⟩
    have hk : ∀ x y : EnsX K, ((x.axis = some a ∧ y.axis = some a) ∧ y.o = x.o ∧ y.collapse = oi.ext.collapse ∧
          x.f = oi.ext.f ∧ y.f = g) →
        ((ensPrims c emb).check y).1 = ((ensPrims c emb).check x).1 ∧
          ((((ensPrims c emb).check x).2.axis = some a ∧ ((ensPrims c emb).check y).2.axis = some a) ∧
            ((ensPrims c emb).check y).2.o = ((ensPrims c emb).check x).2.o ∧
            ((ensPrims c emb).check y).2.collapse = oi.ext.collapse ∧
            ((ensPrims c emb).check x).2.f = oi.ext.f ∧ ((ensPrims c emb).check y).2.f = g) := by
      rintro x y ⟨⟨q0, q1⟩, q2, q3, q4, q5⟩
      simp only [ensPrims, q0, q1, q2, q4, q5, validate_share hg hok]
      cases hv : validateEnsembleAxis oi.ext.f.shape x.o.shape (some a) with
      | error e => exact ⟨rfl, ⟨q0, q1⟩, q2, q3, q4, q5⟩
      | ok b =>
        cases validateEnsembleAxis_some hv
        exact ⟨rfl, ⟨rfl, rfl⟩, rfl, q3, rfl, rfl⟩
    obtain ⟨v1, v2, v3⟩ := twin_validate (mids := mids) hk hR w
    rcases hv' : validate (ensPrims c emb) mids (withForecasts g oi) w with ⟨r', u1, w1'⟩
    rw [hv, hv'] at v1 v2 v3
    simp only at v1 v2 v3
    subst v1 v2
    unfold construct at h ⊢
    rw [hv] at h
    rw [hv']
    cases r' with
    | error e => cases h
    | ok _ =>
      simp only at h ⊢
      cases hi : (ensPrims c emb).init o1.ext with
      | error e => rw [hi] at h; cases h
      | ok x1 =>
        rw [hi] at h
        simp only [Prod.mk.injEq, Except.ok.injEq] at h
        obtain ⟨rfl, rfl⟩ := h
        obtain ⟨⟨q0, q1⟩, q2, q3, q4, q5⟩ := v3.ext
        simp only [ensPrims, EnsX.ax, q0, bind, Except.bind] at hi
        cases hcb : o1.ext.collapse o1.ext.f a with
        | error e => rw [hcb] at hi; cases hi
        | ok fc' =>
          rw [hcb] at hi
          cases hi
          have hfc : fc' = fc := Option.some.inj h1.coll
          subst hfc
          have hcu : u1.ext.collapse u1.ext.f a = .ok fc' := by
            rw [q5, q3]
            exact hcoll
          refine ⟨{ u1 with ext := { u1.ext with fc := some fc' } }, ?_, v3.avg, v3.boot, v3.dir, v3.scratch,
            rfl, q1, q2, rfl, by rw [q4]; exact hok, by rw [q4]; exact h4 ▸ hshape, by rw [q4]; exact hpos,
            by rw [q4, q5]; exact hg⟩
          simp only [ensPrims, EnsX.ax, q1, bind, Except.bind, hcu, pure, Except.pure]
  refine ⟨u, hu, fun ops hops w1 => ?_⟩
  obtain ⟨e1, e2⟩ := twin_runOps_on (mids := mids) (indist_balanced (I := I) (emb := emb) hc) ops hops ht w1
  exact ⟨e1, fun op hop w2 => (twin_step_on (mids := mids) (indist_balanced (I := I) (emb := emb) hc) e2 op hop w2).1⟩

/-! ### the functions taken from outside -/

/-- collapsing the members by their mean, NaN-skipping mean, variance, largest or smallest member looks at the shares
only -/
theorem C127_collapse :
    ShareFree (fun (f : NDArr (Fl K)) ax => reduceAxes mean f (some [ax])) ∧
      ShareFree (fun (f : NDArr (Fl K)) ax => reduceAxes nanmean f (some [ax])) ∧
      ShareFree (fun (f : NDArr (Fl K)) ax => reduceAxes npVar f (some [ax])) ∧
      ShareFree (fun (f : NDArr (Fl K)) ax => reduceAxesE npMax f (some [ax])) ∧
      ShareFree (fun (f : NDArr (Fl K)) ax => reduceAxesE npMin f (some [ax])) :=
  ⟨fun _ _ _ hax _ h => reduceAxes_share _ (fun _ _ => mean_share) h hax,
    fun _ _ _ hax _ h => reduceAxes_share _ (fun _ _ => nanmean_share) h hax,
    fun _ _ _ hax _ h => reduceAxes_share _ (fun _ _ => npVar_share) h hax,
    fun _ _ _ hax _ h => reduceAxesE_share _ (fun _ _ => npMax_share) h hax,
    fun _ _ _ hax _ h => reduceAxesE_share _ (fun _ _ => npMin_share) h hax⟩

/-- the ensemble CRPS looks at the shares only if the score of one observation against its members does, split along the
first axis or not -/
theorem crps_share {pt : Fl K → List (Fl K) → Fl K} (hpt : ∀ x l m, SameShares l m → pt x l = pt x m) (split : Bool) :
    ScoreShareFree (fun o f ax => ensembleCrps pt split ax o f) := by
  intro o f g ax hax ho h0 hg
  have hgax := hg.axis_ok hax
  have hlt := axisNum_lt hax
  have hlt' := axisNum_lt hgax
  have hog : o.shape = posShape g.shape ax := ho.trans hg.positions.symm
  by_cases hpos : 0 < o.shape.headD 0
  · obtain ⟨r, r1, r1', r2, r3⟩ := C40_split pt hax ho hpos
    obtain ⟨s, s1, s1', s2, s3⟩ := C40_split pt hgax hog hpos
    have hrs : s = r := by
      apply ext_get (s2.trans r2.symm)
      intro k hk
      rw [s2] at hk
      rw [r3 k hk, s3 k hk]
      symm
      apply hpt
      have hk' : InB (posShape f.shape ax) k := ho ▸ hk
      have hp := hg.members k hk'
      unfold membersAt at hp
      rwa [fiber_single f hlt (by rw [dropAxes_single hlt]; exact hk'),
        fiber_single g hlt' (by rw [dropAxes_single hlt']; exact (hog ▸ hk : InB (posShape g.shape ax) k))] at hp
    subst hrs
    cases split
    · exact s1'.trans r1'.symm
    · exact s1.trans r1.symm
  · -- a single observation without axes
    have hoe : o.shape = [] := by
      cases hs : o.shape with
      | nil => rfl
      | cons a t =>
        exfalso
        apply h0
        rw [← ho, hs]
        rw [hs] at hpos
        simp only [List.headD_cons] at hpos
        rw [show a = 0 by omega]
        simp
    have hl : f.shape.length = 1 := by
      have := congrArg List.length ho
      rw [hoe] at this
      unfold posShape at this
      rw [List.length_eraseIdx_of_lt hlt] at this
      simp at this
      omega
    obtain ⟨n, hn⟩ := List.length_eq_one_iff.1 hl
    obtain ⟨n', hn'⟩ := List.length_eq_one_iff.1 (hg.rank.trans hl)
    have hax' : ax = -1 ∨ ax = 0 := by
      unfold AxisOK at hax
      rw [hl] at hax
      omega
    have hz : axisNum 1 ax = 0 := by rcases hax' with rfl | rfl <;> rfl
    cases split with
    | true =>
      have : ∀ (e : NDArr (Fl K)) n, e.shape = [n] → ensembleCrps pt true ax o e = .error .index := by
        intro e n he
        simp only [ensembleCrps, if_true, membersLast, he, bind, Except.bind, hoe]
        rw [if_pos (by simpa using hax')]
      simp only
      rw [this f n hn, this g n' hn']
    | false =>
      have : ∀ (e : NDArr (Fl K)) n, e.shape = [n] → ensembleCrps pt false ax o e =
          .ok (ofFn [] fun k => pt (o.get k) ((List.range n).map fun j => e.get (k ++ [j]))) := by
        intro e n he
        have h2 := psCrpsEnsemble_last pt o e n (by rw [he, hoe]; rfl)
        rw [hoe] at h2
        rw [← h2]
        simp only [ensembleCrps, Bool.false_eq_true, if_false]
        rcases hax' with rfl | rfl
        · rfl
        · have hm := moveaxis_end_self e (ax := 0) (by rw [he]; unfold AxisOK; simp) (by rw [he]; rfl)
          unfold psCrpsEnsemble
          simp only [hm, show ¬ ((0 : Int) = -1) by decide, if_false, if_true, bind, Except.bind, pure, Except.pure]
      simp only
      rw [this f n hn, this g n' hn']
      congr 1
      refine ext_get (by rfl) ?_
      intro k hk
      cases hk
      rw [get_ofFn _ List.Forall₂.nil, get_ofFn _ List.Forall₂.nil]
      symm
      apply hpt
      have hp := hg.members [] (by rw [← ho, hoe]; exact List.Forall₂.nil)
      unfold membersAt at hp
      rw [hg.rank, hl, hz] at hp
      rw [fiber_single f (by omega) (by rw [hn]; exact List.Forall₂.nil),
        fiber_single g (by rw [hn']; simp) (by rw [hn']; exact List.Forall₂.nil), hn', hn] at hp
      simpa using hp

theorem avg_copies (n : Nat) (l : List K) (hn : 0 < n) : avg (copies n l) = avg l := by
  have hs : ∀ n, (copies n l).sum = n * l.sum := by
    intro n
    induction n with
    | zero => simp [copies_zero]
    | succ n ih => rw [copies_succ, List.sum_append, ih]; push_cast; ring
  unfold avg
  rw [hs, length_copies, Nat.cast_mul, mul_div_mul_left _ _ (by exact_mod_cast hn.ne')]

theorem memberScore_perm (y : Fl K) {l m : List (Fl K)} (h : l.Perm m) : memberScore y l = memberScore y m := by
  have hp : (present l).Perm (present m) := h.filterMap _
  have hm : ∀ F : K → K, avg ((present l).map F) = avg ((present m).map F) := by
    intro F
    unfold avg
    rw [(hp.map F).sum_eq, (hp.map F).length_eq]
  cases y with
  | none => rfl
  | some y => simp only [memberScore, nil_shuffle hp, hm]

theorem memberScore_copies (y : Fl K) (n : Nat) (l : List (Fl K)) (hn : 0 < n) :
    memberScore y (copies n l) = memberScore y l := by
  cases y with
  | none => rfl
  | some y =>
    have hp : present (copies n l) = copies n (present l) := filterMap_copies _ _ _
    simp only [memberScore, hp, copies_eq_nil hn, map_copies, avg_copies _ _ hn]

/-- properscoring's score, with or without numba and split or not, looks at the shares only -/
theorem C127_crps (split numba : Bool) :
    ScoreShareFree (K := K) (fun o f ax => ensembleCrps (if numba then psOnePass else psFormula) split ax o f) := by
  apply crps_share
  intro y l m h
  have e : ∀ ms, (if numba then psOnePass else psFormula) y ms = memberScore y ms := by
    intro ms
    cases numba
    · exact (C109_score y ms).2
    · exact (C109_score y ms).1
  rw [e, e]
  exact of_copies (fun _ _ => memberScore_perm y) (fun n l hn => memberScore_copies y n l hn) h

/-- so does the kernel density estimate of the probability, whatever the kernel; an exception counts as NaN here -/
theorem C127_kde (P : KdePar K) : TailShareFree fun col => match kdeCol P col with
    | .ok v => some v
    | .error _ => none := by
  intro t l m h
  refine of_copies (F := fun l => match kdeCol P (t :: l) with
    | .ok v => some v
    | .error _ => (none : Fl K)) (fun l m h => C83_kde P t l m h) (fun n l hn => ?_) h
  suffices hs : kdeCol P (t :: copies n l) = kdeCol P (t :: l) by simp only [hs]
  have hmap : ∀ l : List (Fl K), mapE numOrNan l =
      if none ∈ l then .error .value else .ok (l.map fun x => x.getD 0) := by
    intro l
    induction l with
    | nil => rfl
    | cons x l ih =>
      cases x with
      | none => simp [mapE, numOrNan]
      | some v =>
        simp only [mapE, numOrNan, ih]
        by_cases hn : none ∈ l
        · simp [hn]
        · simp [hn]
  simp only [kdeCol, hmap, mem_copies hn, map_copies]
  by_cases hn' : none ∈ l
  · simp only [if_pos hn']
  simp only [if_neg hn']
  generalize l.map (fun x : Fl K => x.getD 0) = a
  have hsum : ∀ (l : List K) n, (copies n l).sum = n * l.sum := by
    intro l n
    induction n with
    | zero => simp [copies_zero]
    | succ n ih => rw [copies_succ, List.sum_append, ih]; push_cast; ring
  have hden : kdeDensity P (copies n a) = kdeDensity P a := by
    funext x
    simp only [kdeDensity, map_copies, hsum, length_copies, Nat.cast_mul]
    rw [mul_div_mul_left _ _ (by exact_mod_cast hn.ne')]
  have fold : ∀ (op : K → K → K) (_ : ∀ x y z, op (op x y) z = op x (op y z)) (_ : ∀ x, op x x = x) (x : K) (l : List K)
      (y : K) (m : List K), copies n (x :: l) = y :: m → m.foldl op y = l.foldl op x := by
    intro op h3 h1 x l
    have hass : ∀ (l : List K) (x y : K), l.foldl op (op x y) = op x (l.foldl op y) := by
      intro l
      induction l with
      | nil => intro x y; rfl
      | cons a l ih => intro x y; rw [List.foldl_cons, List.foldl_cons, h3, ih]
    have : ∀ n, 0 < n → ∀ y m, copies n (x :: l) = y :: m → m.foldl op y = l.foldl op x := by
      intro n
      induction n with
      | zero => intro h; cases h
      | succ n ih =>
        intro _ y m hym
        rcases Nat.eq_zero_or_pos n with rfl | h
        · rw [copies_one] at hym
          cases hym
          rfl
        · rw [copies_succ, List.cons_append] at hym
          cases hym
          obtain ⟨y, m, hym⟩ := List.exists_cons_of_ne_nil (show copies n (x :: l) ≠ [] from fun e => by
            rw [copies_eq_nil h] at e; cases e)
          rw [hym, List.foldl_append, List.foldl_cons, hass, ih h y m hym, h1]
    exact this n hn
  cases ha : copies n a with
  | nil =>
    rw [copies_eq_nil hn] at ha
    subst ha
    rfl
  | cons y m =>
    cases a with
    | nil => rw [(copies_eq_nil hn).2 rfl] at ha; cases ha
    | cons x l =>
      rw [ha] at hden
      simp only [bind, Except.bind]
      rw [hden, fold min min_assoc min_self x l y m ha, fold max max_assoc max_self x l y m ha]

/-! ### where the number of members is seen -/

/-- **C127**: the ensemble axis must be stated.  If it is left to the guess of the constructor, giving every member twice
can move the guess from the first axis to the last, so that other numbers count as members. -/
theorem C127_guess : guessEnsembleAxis [3, 6, 6] [6, 6] = .ok 0 ∧ guessEnsembleAxis [6, 6, 6] [6, 6] = .ok (-1) := by
  decide +kernel

/-- **C127**: the guess is safe when the members are last, or when twice the number of members is not the first length of
the observations -/
theorem C127_guess_safe (n p : Nat) (s : List Nat) :
    guessEnsembleAxis (s ++ [n]) s = .ok (-1) ∧
      (p ≠ n → guessEnsembleAxis (n :: p :: s) (p :: s) = .ok 0) := by
  constructor
  · unfold guessEnsembleAxis
    rw [popAt_pos (by unfold AxisOK; simp)]
    have : posShape (s ++ [n]) (-1) = s := by
      unfold posShape axisNum
      rw [if_pos (by decide)]
      rw [show (-1 + ((s ++ [n]).length : Int)).toNat = s.length by simp]
      rw [List.eraseIdx_append_of_length_le (le_refl _)]
      simp
    simp only [bind, Except.bind, this, if_true, pure, Except.pure]
  · intro h
    unfold guessEnsembleAxis
    rw [popAt_pos (by unfold AxisOK; simp; omega), popAt_pos (by unfold AxisOK; simp; omega)]
    have h1 : posShape (n :: p :: s) (-1) ≠ p :: s := by
      unfold posShape axisNum
      rw [if_pos (by decide)]
      rw [show (-1 + ((n :: p :: s).length : Int)).toNat = s.length + 1 by simp]
      rw [List.eraseIdx_cons_succ]
      intro e
      exact h (List.cons.inj e).1.symm
    have h2 : posShape (n :: p :: s) 0 = p :: s := rfl
    simp only [bind, Except.bind, if_neg h1, h2, if_true, pure, Except.pure]

/-- `ensMean` with its axis stated -/
def ensStated : EnsX ℚ := { ensMean with axis := some 0 }

/-- every member twice -/
def ensDoubled : NDArr (Fl ℚ) := ⟨[6, 2], ensMean.f.data ++ ensMean.f.data, rfl⟩

theorem ensDoubled_same : SameFrequencies 0 ensStated.f ensDoubled := by
  refine ⟨rfl, rfl, fun k hk => ?_⟩
  have hk' : k ∈ allIdx [2] := mem_allIdx.2 hk
  simp only [show allIdx [2] = [[0], [1]] by decide, List.mem_cons, List.not_mem_nil, or_false] at hk'
  rcases hk' with rfl | rfl
  · exact copies_shares (n := 2) (k := 1) (by simp) (by simp) (by decide +kernel)
  · exact copies_shares (n := 2) (k := 1) (by simp) (by simp) (by decide +kernel)

def psCfg : Cfg ℚ := { cfg0 with crpsEns := fun o f ax => ensembleCrps (if true then psOnePass else psFormula) true ax o f }

/-- the hypotheses of C127 are met -/
example : builtAxis (construct (ensPrims psCfg embInt) noMids ⟨.none, .none, .none, some true, ensStated⟩ world0) = some 0 ∧
    SameFrequencies 0 ensStated.f ensDoubled ∧ ShareFree ensStated.collapse ∧ CfgShareFree psCfg ∧
    ensStated.o.shape.prod ≠ 0 :=
  ⟨by decide +kernel, ensDoubled_same, C127_collapse.1, ⟨C127_crps true true, fun h => by cases h⟩, by decide +kernel⟩

/-- **C127**: `rank_hist()` has one rank more than there are members and does see their number. -/
theorem C127_ranks : 
    (rankHistogram false false 1 (-1) (fun _ _ _ => 0) ensStated.f ensStated.o 0).toOption.map NDArr.data =
        some [some 3, some 2] ∧
      (rankHistogram false false 1 (-1) (fun _ _ _ => 0) ensDoubled ensStated.o 0).toOption.map NDArr.data =
        some [some 5, some 3] := by
  decide +kernel

end Props
