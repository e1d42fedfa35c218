import Verif.Lemmas.Twin
import Verif.Lemmas.Shuffle
import Verif.Props.EndToEndClasses
import Verif.Props.EndToEndProbCase
import Verif.Props.Crps
import Verif.Model.Kde

/-!
# The order of the members

C83: the ensemble verifier gives the same results for the same members in another order.
-/

set_option linter.unusedSectionVars false

namespace Props
open Np NDArr Spec Model Lemmas

variable {K : Type} [Field K] [LinearOrder K] [IsStrictOrderedRing K] [FloorSemiring K]
variable {A : Type} {I : ArgInfo A} {mids : FS (PyVal K) → Path → List (FS (PyVal K))} {c : Cfg K} {emb : A → Arg K}

/-- two validated ensembles that differ in the order of the members only -/
structure Alike (ax : Int) (x y : EnsX K) : Prop where
  axis : x.axis = some ax
  axis' : y.axis = some ax
  o : y.o = x.o
  fc : y.fc = x.fc
  axisOK : AxisOK x.f.shape.length ax
  shape : x.o.shape = posShape x.f.shape ax
  f : Shuffled ax x.f y.f

/-- the settings do not look at the order of the members -/
structure CfgOrderFree (c : Cfg K) : Prop where
  crps : ScoreOrderFree c.crpsEns
  kde : c.method = .kde → TailOrderFree c.kde

variable {ax : Int} {x y : EnsX K}

theorem alike_metric (hc : CfgOrderFree c) (h : Alike ax x y) (avg : PyAxis) (boot : PyBoot) (r : Req A) :
    metricProg .ensemble I (ensPrims c emb) y avg boot r = metricProg .ensemble I (ensPrims c emb) x avg boot r := by
  have e1 : (ensPrims c emb).fDet y = (ensPrims c emb).fDet x := by simp only [ensPrims, h.fc]
  have e2 : (ensPrims c emb).errorOf y = (ensPrims c emb).errorOf x := by
    simp only [ensPrims, basePrims, h.o]
  have e3 : (ensPrims c emb).sqErrorOf y = (ensPrims c emb).sqErrorOf x := by
    simp only [ensPrims, basePrims, h.o]
  have e4 : (ensPrims c emb).abErrorOf y = (ensPrims c emb).abErrorOf x := by
    simp only [ensPrims, basePrims, h.o]
  have e5 : (ensPrims c emb).crps y = (ensPrims c emb).crps x := by
    simp only [ensPrims, EnsX.ax, h.axis, h.axis', h.o, bind, Except.bind,
      hc.crps x.o x.f y.f ax h.axisOK h.shape h.f]
  have e6 : ((ensPrims c emb).ens y >>= (ensPrims c emb).spreadOf y) =
      ((ensPrims c emb).ens x >>= (ensPrims c emb).spreadOf x) := by
    simp only [ensPrims, EnsX.ax, h.axis, h.axis', bind, Except.bind, PyVal.asNum,
      ensSpread_shuffle c.skipNan h.f h.axisOK]
  have e7 : ∀ s, ((ensPrims c emb).ens y >>= fun e => (ensPrims c emb).rankOf y e s) =
      ((ensPrims c emb).ens x >>= fun e => (ensPrims c emb).rankOf x e s) := by
    intro s
    simp only [ensPrims, EnsX.ax, h.axis, h.axis', h.o, bind, Except.bind, PyVal.asNum,
      rankHistogram_shuffle c.skipNan c.npFloat c.workers c.mapAxis (c.rng s 0) h.f h.axisOK h.shape]
  have e8 : (ensPrims c emb).variance y = (ensPrims c emb).variance x := by
    simp only [ensPrims, EnsX.ax, h.axis, h.axis', bind, Except.bind, ensVariance_shuffle h.f h.axisOK]
  have e9 : (ensPrims c emb).cdfBelow y = (ensPrims c emb).cdfBelow x := by
    funext b
    simp only [ensPrims, EnsX.ax, h.axis, h.axis', bind, Except.bind, ensToProb,
      ensToProbBelow_shuffle c.workers c.method c.kde _ hc.kde h.f h.axisOK]
  have e10 : (ensPrims c emb).binarize y = (ensPrims c emb).binarize x := by
    simp only [ensPrims, basePrims, h.o]
  have e11 : (ensPrims c emb).iouDeterm y = (ensPrims c emb).iouDeterm x := by
    simp only [ensPrims, basePrims, h.o]
  have e12 : (ensPrims c emb).corr y = (ensPrims c emb).corr x := by
    simp only [ensPrims, basePrims, h.o]
  have e13 : (ensPrims c emb).corrBoot y = (ensPrims c emb).corrBoot x := by
    simp only [ensPrims, basePrims, h.o]
  have cdf : ∀ o b, cdfBody .ensemble I (ensPrims c emb) y o b = cdfBody .ensemble I (ensPrims c emb) x o b := by
    intro o b
    simp only [cdfBody, e9]
  have prob : ∀ o b k, withProb .ensemble I (ensPrims c emb) y o b k = withProb .ensemble I (ensPrims c emb) x o b k := by
    intro o b k
    simp only [withProb, cdfCall, cdf, e10]
  have sq : sqBody .ensemble I (ensPrims c emb) y = sqBody .ensemble I (ensPrims c emb) x := by
    simp only [sqBody, withDet, e1, e3]
  cases r with
  | rmse => simp only [metricProg, sq]
  | slot s =>
    have hb : slotBody .ensemble I (ensPrims c emb) y avg boot s = slotBody .ensemble I (ensPrims c emb) x avg boot s := by
      cases s with
      | error => simp only [slotBody, withDet, e1, e2]
      | sqError => simp only [slotBody, sq]
      | abError => simp only [slotBody, withDet, e1, e4]
      | crps => simp only [slotBody, e5]
      | spread => simp only [slotBody, e6]
      | rankHist => simp only [slotBody, e7]
      | variance => simp only [slotBody, varBody, e8]
      | fDeterm => simp only [slotBody, fDetBody, e1]
      | probToEns => rfl
      | pit => rfl
      | corr => simp only [slotBody, fDetCall, fDetBody, e1, e12, e13]
      | brierDecomp o b => simp only [slotBody, prob]
      | brier o b => simp only [slotBody, brierBody, cdfCall, cdf, e10]
      | cdf o b => simp only [slotBody, cdf]
      | roc o b => simp only [slotBody, prob]
      | sharpness o b => simp only [slotBody, cdfCall, cdf]
      | iouDeterm o b => simp only [slotBody, withDet, e1, e11]
      | iouProb o b => simp only [slotBody, prob]
      | reliability n o b => simp only [slotBody, prob]
      | ss n => simp only [slotBody, varBody, e8, sq]
    simp only [metricProg, hb]

theorem validateEnsembleAxis_some {s t : List Nat} {a b : Int} (h : validateEnsembleAxis s t (some a) = .ok b) : b = a := by
  unfold validateEnsembleAxis at h
  simp only [bind, Except.bind, pure, Except.pure] at h
  split at h
  · split at h
    · cases h
    · split at h
      · cases h; rfl
      · cases h
  · cases h

theorem alike_check (h : Alike ax x y) : ((ensPrims c emb).check y).1 = ((ensPrims c emb).check x).1 ∧
    Alike ax ((ensPrims c emb).check x).2 ((ensPrims c emb).check y).2 := by
  simp only [ensPrims, h.axis, h.axis', h.o, h.f.shape]
  cases hv : validateEnsembleAxis x.f.shape x.o.shape (some ax) with
  | error e => exact ⟨rfl, h⟩
  | ok a =>
    cases validateEnsembleAxis_some hv
    exact ⟨rfl, ⟨rfl, rfl, rfl, h.fc, h.axisOK, h.shape, h.f⟩⟩

theorem indist_alike (hc : CfgOrderFree c) :
    Indist .ensemble I (ensPrims c emb) (ensPrims c emb) (Alike (K := K) ax) :=
  ⟨fun _ _ h => alike_metric hc h, fun _ _ h => alike_check h⟩

/-- **C83**: give an ensemble verifier the same members in another order (possibly a different order at every
position).  The constructor accepts it with the same effects, and after any common history of metric calls and setters
(averaging axes, bootstrapping, saving) every call returns or raises the same and leaves the same files and the same
state of the random generator.  The functions taken from outside (collapsing function, ensemble CRPS, density estimate)
must not look at the order themselves. -/
theorem C83_history {oi o : Obj (EnsX K)} {w w' : World (PyVal K)}
    (h : construct (ensPrims c emb) mids oi w = (.ok o, w')) (hc : CfgOrderFree c) (hcol : OrderFree oi.ext.collapse)
    (hax : o.ext.axis = some ax) {g : NDArr (Fl K)} (hg : Shuffled ax oi.ext.f g) :
    ∃ u, construct (ensPrims c emb) mids (withForecasts g oi) w = (.ok u, w') ∧
      ∀ ops : List (Op (EnsX K) A), (∀ op ∈ ops, CommonOnly op) → ∀ w1,
        (runOps .ensemble I (ensPrims c emb) mids ops u w1).2 = (runOps .ensemble I (ensPrims c emb) mids ops o w1).2 ∧
        ∀ op : Op (EnsX K) A, CommonOnly op → ∀ w2,
          (step .ensemble I (ensPrims c emb) mids op (runOps .ensemble I (ensPrims c emb) mids ops u w1).1 w2).1 =
            (step .ensemble I (ensPrims c emb) mids op (runOps .ensemble I (ensPrims c emb) mids ops o w1).1 w2).1 := by
  obtain ⟨a, fc, h1, h2, h3, h4, -, -, -⟩ := C75_construct_ens h
  have haa : a = ax := by rw [h1.axis] at hax; exact Option.some.inj hax
  subst haa
  have hok := h1.axisOK
  rw [h3] at hok
  have hcoll : oi.ext.collapse g a = .ok fc := (hcol _ _ a hok hg).trans h2
  obtain ⟨u, hu, ht⟩ : ∃ u, construct (ensPrims c emb) mids (withForecasts g oi) w = (.ok u, w') ∧ Twin (Alike a) o u := by
    rcases hv : validate (ensPrims c emb) mids oi w with ⟨r, o1, w1⟩
    have hR : Twin (fun x y => y.axis = x.axis ∧ y.o = x.o ∧ y.collapse = oi.ext.collapse ∧ x.f = oi.ext.f ∧ y.f = g) oi
        (withForecasts g oi) := ⟨rfl, rfl, rfl, rfl, rfl, rfl, rfl, rfl, rfl⟩
    have hk : ∀ x y : EnsX K, (y.axis = x.axis ∧ y.o = x.o ∧ y.collapse = oi.ext.collapse ∧ x.f = oi.ext.f ∧ y.f = g) →
        ((ensPrims c emb).check y).1 = ((ensPrims c emb).check x).1 ∧
          (((ensPrims c emb).check y).2.axis = ((ensPrims c emb).check x).2.axis ∧
            ((ensPrims c emb).check y).2.o = ((ensPrims c emb).check x).2.o ∧
            ((ensPrims c emb).check y).2.collapse = oi.ext.collapse ∧
            ((ensPrims c emb).check x).2.f = oi.ext.f ∧ ((ensPrims c emb).check y).2.f = g) := by
      rintro x y ⟨q1, q2, q3, q4, q5⟩
      simp only [ensPrims, q1, q2, q4, q5, hg.shape]
      cases validateEnsembleAxis oi.ext.f.shape x.o.shape x.axis with
      | error e => exact ⟨rfl, q1, q2, q3, q4, q5⟩
      | ok b => exact ⟨rfl, rfl, rfl, q3, rfl, rfl⟩
    obtain ⟨v1, v2, v3⟩ := twin_validate (mids := mids) hk hR w
    rcases hv' : validate (ensPrims c emb) mids (withForecasts g oi) w with ⟨r', u1, w1'⟩
    rw [hv, hv'] at v1 v2 v3
    simp only at v1 v2 v3
    subst v1 v2
    unfold construct at h ⊢
    rw [hv] at h
    rw [hv']
    cases r' with
    | error e => cases h
    | ok _ =>
      simp only at h ⊢
      cases hi : (ensPrims c emb).init o1.ext with
      | error e => rw [hi] at h; cases h
      | ok x1 =>
        rw [hi] at h
        simp only [Prod.mk.injEq, Except.ok.injEq] at h
        obtain ⟨rfl, rfl⟩ := h
        obtain ⟨q1, q2, q3, q4, q5⟩ := v3.ext
        have hshape := h1.shape
        rw [h3, h4] at hshape
        cases hoa : o1.ext.axis with
        | none =>
          simp only [ensPrims, EnsX.ax, hoa, bind, Except.bind] at hi
          cases hi
        | some b =>
          rw [hoa] at q1
          simp only [ensPrims, EnsX.ax, hoa, bind, Except.bind] at hi
          cases hcb : o1.ext.collapse o1.ext.f b with
          | error e => rw [hcb] at hi; cases hi
          | ok fc' =>
            rw [hcb] at hi
            cases hi
            have hba : b = a := Option.some.inj h1.axis
            subst hba
            have hfc : fc' = fc := Option.some.inj h1.coll
            subst hfc
            have hcu : u1.ext.collapse u1.ext.f b = .ok fc' := by
              rw [q5, q3]
              exact hcoll
            refine ⟨{ u1 with ext := { u1.ext with fc := some fc' } }, ?_, v3.avg, v3.boot, v3.dir, v3.scratch,
              rfl, q1, q2, rfl, by rw [q4]; exact hok, by rw [q4]; exact h4 ▸ hshape, by rw [q4, q5]; exact hg⟩
            simp only [ensPrims, EnsX.ax, q1, bind, Except.bind, hcu, pure, Except.pure]
  refine ⟨u, hu, fun ops hops w1 => ?_⟩
  obtain ⟨e1, e2⟩ := twin_runOps (mids := mids) (indist_alike (I := I) (emb := emb) hc) ops hops ht w1
  exact ⟨e1, fun op hop w2 => (twin_step (mids := mids) (indist_alike (I := I) (emb := emb) hc) e2 op hop w2).1⟩

/-! ### the functions taken from outside -/

/-- collapsing the members by their mean, NaN-skipping mean, variance, largest or smallest member is order free -/
theorem C83_collapse :
    OrderFree (fun (f : NDArr (Fl K)) ax => reduceAxes mean f (some [ax])) ∧
      OrderFree (fun (f : NDArr (Fl K)) ax => reduceAxes nanmean f (some [ax])) ∧
      OrderFree (fun (f : NDArr (Fl K)) ax => reduceAxes npVar f (some [ax])) ∧
      OrderFree (fun (f : NDArr (Fl K)) ax => reduceAxesE npMax f (some [ax])) ∧
      OrderFree (fun (f : NDArr (Fl K)) ax => reduceAxesE npMin f (some [ax])) :=
  ⟨fun _ _ _ hax h => reduceAxes_shuffle _ (fun _ _ => mean_shuffle) h hax,
    fun _ _ _ hax h => reduceAxes_shuffle _ (fun _ _ => nanmean_shuffle) h hax,
    fun _ _ _ hax h => reduceAxes_shuffle _ (fun _ _ => npVar_shuffle) h hax,
    fun _ _ _ hax h => reduceAxesE_shuffle _ (fun _ _ => npMax_shuffle) h hax,
    fun _ _ _ hax h => reduceAxesE_shuffle _ (fun _ _ => npMin_shuffle) h hax⟩

/-- the ensemble CRPS is order free if the score of one observation against its members is, split along the first axis
or not -/
theorem C83_crps {pt : Fl K → List (Fl K) → Fl K} (hpt : ∀ x l m, l.Perm m → pt x l = pt x m) (split : Bool) :
    ScoreOrderFree (fun o f ax => ensembleCrps pt split ax o f) := by
  intro o f g ax hax ho hg
  have hgax := hg.axis_ok hax
  have hlt := axisNum_lt hax
  by_cases h0 : (posShape f.shape ax).prod = 0
  · rw [hg.eq_of_empty hax h0]
  by_cases hpos : 0 < o.shape.headD 0
  · obtain ⟨r, r1, r1', r2, r3⟩ := C40_split pt hax ho hpos
    obtain ⟨s, s1, s1', s2, s3⟩ := C40_split pt hgax (by rw [hg.shape]; exact ho) hpos
    have hrs : s = r := by
      apply ext_get (s2.trans r2.symm)
      intro k hk
      rw [s2] at hk
      rw [r3 k hk, s3 k hk]
      apply hpt
      have hk' : InB (posShape f.shape ax) k := ho ▸ hk
      have hp := hg.members k hk'
      unfold membersAt at hp
      rwa [fiber_single f hlt (by rw [dropAxes_single hlt]; exact hk'),
        fiber_single g (by rw [hg.shape]; exact hlt)
          (by rw [hg.shape, dropAxes_single hlt]; exact hk')] at hp
    subst hrs
    cases split
    · exact s1'.trans r1'.symm
    · exact s1.trans r1.symm
  · -- a single observation without axes
    have hoe : o.shape = [] := by
      cases hs : o.shape with
      | nil => rfl
      | cons a t =>
        exfalso
        apply h0
        rw [← ho, hs]
        rw [hs] at hpos
        simp only [List.headD_cons] at hpos
        rw [show a = 0 by omega]
        simp
    have hl : f.shape.length = 1 := by
      have := congrArg List.length ho
      rw [hoe] at this
      unfold posShape at this
      rw [List.length_eraseIdx_of_lt hlt] at this
      simp at this
      omega
    obtain ⟨n, hn⟩ := List.length_eq_one_iff.1 hl
    have hax' : ax = -1 ∨ ax = 0 := by
      unfold AxisOK at hax
      rw [hl] at hax
      omega
    have hz : axisNum 1 ax = 0 := by rcases hax' with rfl | rfl <;> rfl
    cases split with
    | true =>
      have : ∀ e : NDArr (Fl K), e.shape = [n] → ensembleCrps pt true ax o e = .error .index := by
        intro e he
        simp only [ensembleCrps, if_true, membersLast, he, bind, Except.bind, hoe]
        rw [if_pos (by simpa using hax')]
      simp only
      rw [this f hn, this g (hg.shape.trans hn)]
    | false =>
      have : ∀ e : NDArr (Fl K), e.shape = [n] → ensembleCrps pt false ax o e =
          .ok (ofFn [] fun k => pt (o.get k) ((List.range n).map fun j => e.get (k ++ [j]))) := by
        intro e he
        have h2 := psCrpsEnsemble_last pt o e n (by rw [he, hoe]; rfl)
        rw [hoe] at h2
        rw [← h2]
        simp only [ensembleCrps, Bool.false_eq_true, if_false]
        rcases hax' with rfl | rfl
        · rfl
        · have hm := moveaxis_end_self e (ax := 0) (by rw [he]; unfold AxisOK; simp) (by rw [he]; rfl)
          unfold psCrpsEnsemble
          simp only [hm, show ¬ ((0 : Int) = -1) by decide, if_false, if_true, bind, Except.bind, pure, Except.pure]
      simp only
      rw [this f hn, this g (hg.shape.trans hn)]
      congr 1
      refine ext_get (by rfl) ?_
      intro k hk
      cases hk
      rw [get_ofFn _ List.Forall₂.nil, get_ofFn _ List.Forall₂.nil]
      apply hpt
      have hp := hg.members [] (by rw [← ho, hoe]; exact List.Forall₂.nil)
      unfold membersAt at hp
      rw [hg.shape, hl, hz] at hp
      rw [fiber_single f (by omega) (by rw [hn]; exact List.Forall₂.nil),
        fiber_single g (by rw [hg.shape]; omega) (by rw [hg.shape, hn]; exact List.Forall₂.nil), hg.shape, hn] at hp
      simpa using hp

/-- so is the kernel density estimate of the probability, whatever the kernel; an exception counts as NaN here -/
theorem C83_kde (P : KdePar K) : TailOrderFree fun col => match kdeCol P col with
    | .ok v => some v
    | .error _ => none := by
  intro t l m h
  suffices hs : kdeCol P (t :: l) = kdeCol P (t :: m) by simp only [hs]
  have hmap : ∀ l : List (Fl K), mapE numOrNan l =
      if none ∈ l then .error .value else .ok (l.map fun x => x.getD 0) := by
    intro l
    induction l with
    | nil => rfl
    | cons x l ih =>
      cases x with
      | none => simp [mapE, numOrNan]
      | some v =>
        simp only [mapE, numOrNan, ih]
        by_cases hn : none ∈ l
        · simp [hn]
        · simp [hn]
  simp only [kdeCol, hmap, h.mem_iff]
  by_cases hn : none ∈ m
  · simp only [if_pos hn]
  simp only [if_neg hn]
  have hp : (l.map fun x : Fl K => x.getD 0).Perm (m.map fun x => x.getD 0) := h.map _
  generalize l.map (fun x : Fl K => x.getD 0) = a at hp
  generalize m.map (fun x : Fl K => x.getD 0) = b at hp
  have hden : kdeDensity P a = kdeDensity P b := by
    funext x
    simp only [kdeDensity, (hp.map _).sum_eq, hp.length_eq]
  have fold : ∀ (op : K → K → K) (_ : ∀ x y z, op (op x y) z = op (op x z) y) (_ : ∀ x y, op x y = op y x)
      (x : K) (l : List K) (y : K) (m : List K), (x :: l).Perm (y :: m) → l.foldl op x = m.foldl op y := by
    intro op h3 h2
    have : ∀ a b : List K, a.Perm b → ∀ x l y m, a = x :: l → b = y :: m → l.foldl op x = m.foldl op y := by
      intro a b hab
      induction hab with
      | nil => intro x l y m h; cases h
      | @cons z l m h ih =>
        intro x l' y m' h1 h2'
        cases h1; cases h2'
        exact h.foldl_eq' (fun a _ b _ z => h3 z a b) _
      | swap x y l =>
        intro x' l' y' m' h1 h2'
        cases h1; cases h2'
        simp only [List.foldl_cons, h2]
      | @trans a b c hab hbc ih1 ih2 =>
        intro x l y m h1 h2'
        cases b with
        | nil => subst h1; exact absurd hab.eq_nil (by simp)
        | cons z b' => exact (ih1 x l z b' h1 rfl).trans (ih2 z b' y m rfl h2')
    exact fun x l y m h => this _ _ h x l y m rfl rfl
  cases a with
  | nil => rw [hp.nil_eq.symm]
  | cons x a =>
    cases b with
    | nil => exact absurd hp.eq_nil (by simp)
    | cons y b =>
      simp only [bind, Except.bind]
      rw [hden, fold min min_right_comm min_comm x a y b hp, fold max max_right_comm max_comm x a y b hp]

/-- `ensX3` with its members collapsed by the mean -/
def ensMean : EnsX ℚ := { ensX3 with collapse := fun f ax => reduceAxes mean f (some [ax]) }

/-- its members in another order: `3, 1, 2` at the first position and `5, 7, 6` at the second -/
def ensMixed : NDArr (Fl ℚ) := ⟨[3, 2], [some 3, some 5, some 1, some 7, some 2, some 6], rfl⟩

theorem ensMixed_shuffled : Shuffled 0 ensMean.f ensMixed := by
  refine ⟨rfl, fun k hk => ?_⟩
  have hk' : k ∈ allIdx [2] := mem_allIdx.2 hk
  simp only [show allIdx [2] = [[0], [1]] by decide, List.mem_cons, List.not_mem_nil, or_false] at hk'
  rcases hk' with rfl | rfl <;> decide +kernel

/-- a score that adds up distances -/
def distScore (x : Fl ℚ) (l : List (Fl ℚ)) : Fl ℚ := fsum (l.map fun y => Fl.abs (Fl.sub y x))

def distCfg : Cfg ℚ := { cfg0 with crpsEns := fun o f ax => ensembleCrps distScore true ax o f }

theorem distScore_free (x : Fl ℚ) (l m : List (Fl ℚ)) (h : l.Perm m) : distScore x l = distScore x m :=
  fsum_shuffle (h.map _)

theorem distCfg_free : CfgOrderFree distCfg where
  crps := C83_crps (pt := distScore) distScore_free true
  kde h := by cases h

/-- the ensemble axis of a constructed verifier -/
def builtAxis (r : Except Err (Obj (EnsX ℚ)) × World (PyVal ℚ)) : Option Int :=
  match r.1 with
  | .ok o => o.ext.axis
  | .error _ => none

/-- the hypotheses of C83 are met: three members at two positions, collapsed by their mean -/
example : builtAxis (construct (ensPrims distCfg embInt) noMids ⟨.none, .none, .none, some true, ensMean⟩ world0) = some 0 ∧
    Shuffled 0 ensMean.f ensMixed ∧ ensMixed.data ≠ ensMean.f.data ∧ OrderFree ensMean.collapse ∧
    CfgOrderFree distCfg :=
  ⟨by decide +kernel, ensMixed_shuffled, by decide +kernel, C83_collapse.1,
    distCfg_free⟩

/-- a collapsing function that looks at the order shows: with the first member as the deterministic forecast the errors
differ -/
example : numOf (result .ensemble intInfo ensP noMids (.slot .error) ⟨.none, .none, .none, some true,
      { ensX3 with axis := some 0, fc := (ensX3.collapse ensX3.f 0).toOption }⟩ world0) ≠
    numOf (result .ensemble intInfo ensP noMids (.slot .error) ⟨.none, .none, .none, some true,
      { ensX3 with f := ensMixed, axis := some 0, fc := (ensX3.collapse ensMixed 0).toOption }⟩ world0) := by
  decide +kernel

end Props
