import Verif.Lemmas.RoundingDecomp
import Verif.Props.RoundingBins
import Verif.Props.EndToEndCurves
import Verif.Props.EndToEndClasses
import Verif.Props.RoundingError
import Verif.Props.Murphy
import Verif.Props.Proper
import Verif.Props.EndToEndProbCase

/-!
# C110: the Brier decomposition of a small ensemble adds up

`brier_decomp()` collects the forecasts in twenty bins, so that in general the three terms do not add up to the Brier
score (C13).  The probabilities of an ensemble with at most 19 members never share a bin, in exact and in rounded
arithmetic; from 20 members on they do.
-/

set_option linter.unusedSectionVars false

namespace Props
open Np NDArr Spec Model Lemmas

variable {K : Type} [Field K] [LinearOrder K] [IsStrictOrderedRing K] {R : Rounding K} {u : K}

/-- 1 if the event happened, else 0 -/
def happened (p : Nat × Bool) : K := if p.2 then 1 else 0

theorem sum_happened (P : List (Nat × Bool)) : (P.map (happened (K := K))).sum = (hits P : K) := by
  induction P with
  | nil => simp [hits]
  | cons p P ih =>
    rw [List.map_cons, List.sum_cons, ih]
    unfold hits
    rw [List.countP_cons]
    cases hp : p.2 <;> simp [happened, hp, add_comm]

theorem avg_happened (P : List (Nat × Bool)) : avg (P.map (happened (K := K))) = baseRate P := by
  unfold avg baseRate
  rw [sum_happened, List.length_map]

theorem avg_happened_cell (P : List (Nat × Bool)) (k : Nat) :
    avg ((P.filter fun q => q.1 = k).map (happened (K := K))) = voteRate P k := avg_happened _

theorem avg_votes_cell (m : Nat) {P : List (Nat × Bool)} {p : Nat × Bool} (hp : p ∈ P) :
    avg ((P.filter fun q => q.1 = p.1).map fun q => (q.1 : K) / m) = (p.1 : K) / m := by
  have h : ((P.filter fun q => q.1 = p.1).map fun q => (q.1 : K) / m) =
      (P.filter fun q => q.1 = p.1).map fun _ => (p.1 : K) / m := by
    apply List.map_congr_left
    intro q hq
    have : q.1 = p.1 := by simpa using (List.mem_filter.1 hq).2
    rw [this]
  have hne : ((P.filter fun q => q.1 = p.1).length : K) ≠ 0 := by
    have : 0 < (P.filter fun q => q.1 = p.1).length := List.length_pos_of_mem (List.mem_filter.2 ⟨hp, by simp⟩)
    exact_mod_cast this.ne'
  rw [h, avg, List.map_const', List.sum_replicate, List.length_replicate, nsmul_eq_mul, mul_div_cancel_left₀ _ hne]

/-- **C110**: the identity of the specification: with one cell per number of votes the Brier score is reliability minus
resolution plus uncertainty. -/
theorem C110_identity (m : Nat) {P : List (Nat × Bool)} (hP : P ≠ []) :
    (voteBrier m P : K) = voteRel m P - voteRes P + voteUnc P := by
  have hpos : (P.length : K) ≠ 0 := by
    have : 0 < P.length := List.length_pos_iff.2 hP
    exact_mod_cast this.ne'
  have o1 := sum_dev_zero Prod.fst (happened (K := K)) (fun b => (b : K) / m - voteRate P b) P
  have o2 := sum_dev_zero Prod.fst (happened (K := K)) (fun b => voteRate P b - baseRate P) P
  simp only [avg_happened_cell] at o1 o2
  have e1 := sum_sq_expand (fun _ : Nat × Bool => (0 : K)) (fun p => (p.1 : K) / m - voteRate P p.1)
    (fun p => happened p - voteRate P p.1) P
  have e2 := sum_sq_expand2 (fun p : Nat × Bool => happened (K := K) p - voteRate P p.1)
    (fun p => voteRate P p.1 - baseRate P) P
  rw [o1] at e1
  rw [o2] at e2
  have h1 : (P.map fun p : Nat × Bool => ((0 : K) + ((p.1 : K) / m - voteRate P p.1) - (happened p - voteRate P p.1)) ^ 2) =
      P.map fun p => ((p.1 : K) / m - if p.2 then 1 else 0) ^ 2 := by
    apply List.map_congr_left; intro p _; simp only [happened]; ring
  have h2 : (P.map fun p : Nat × Bool => (happened (K := K) p - voteRate P p.1 + (voteRate P p.1 - baseRate P)) ^ 2).sum =
      (P.length : K) * voteUnc P := by
    have h3 : ∀ Q : List (Nat × Bool), (Q.map fun p : Nat × Bool =>
        (happened (K := K) p - voteRate P p.1 + (voteRate P p.1 - baseRate P)) ^ 2).sum =
        (Q.map (happened (K := K))).sum * (1 - 2 * baseRate P) + (Q.length : K) * baseRate P ^ 2 := by
      intro Q
      induction Q with
      | nil => simp
      | cons q Q ih =>
        rw [List.map_cons, List.sum_cons, ih, List.map_cons, List.sum_cons, List.length_cons]
        push_cast
        rcases q with ⟨k, b⟩
        cases b <;> simp only [happened, if_true, Bool.false_eq_true, if_false] <;> ring
    rw [h3, sum_happened]
    have : (hits P : K) = (P.length : K) * baseRate P := by unfold baseRate; field_simp
    rw [this, voteUnc]; ring
  have h4 : (P.map fun p : Nat × Bool => (voteRate P p.1 - baseRate P : K) ^ 2).sum = (P.length : K) * voteRes P := by
    unfold voteRes; exact sum_eq_avg _ hP
  have h5 : (P.map fun p : Nat × Bool => ((p.1 : K) / m - voteRate P p.1) ^ 2).sum = (P.length : K) * voteRel m P := by
    unfold voteRel; exact sum_eq_avg _ hP
  have h6 : (P.map fun p : Nat × Bool => ((p.1 : K) / m - if p.2 then 1 else 0) ^ 2).sum = (P.length : K) * voteBrier m P := by
    unfold voteBrier; exact sum_eq_avg _ hP
  rw [h1, h6, h5] at e1
  rw [h2, h4] at e2
  have z2 : (P.map fun p : Nat × Bool => (0 : K) ^ 2 - 2 * 0 * (happened p - voteRate P p.1)).sum = 0 := by simp
  have z3 : (P.map fun p : Nat × Bool => (0 : K) * ((p.1 : K) / m - voteRate P p.1)).sum = 0 := by simp
  rw [z2, z3] at e1
  apply mul_left_cancel₀ hpos
  linear_combination e1 - e2

/-! ### exact arithmetic -/

/-- different fractions of at most 19 members are separated by an edge -/
theorem sameBin_votes {m k k' : Nat} (hm : m ≤ 19) (hk : k ≤ m) (hk' : k' ≤ m)
    (h : sameBin 19 ((k : K) / m) ((k' : K) / m)) : k = k' := by
  have key : ∀ {k k' : Nat}, k < k' → k' ≤ m → ∃ i : Nat, 1 ≤ i ∧ i ≤ 19 ∧ ¬ (i : K) / (((19 : Nat) : K) + 1) ≤ (k : K) / m ∧
      (i : K) / (((19 : Nat) : K) + 1) ≤ (k' : K) / m := by
    intro k k' hlt hle
    have hmpos : 0 < m := by omega
    have hmK : (0 : K) < m := by exact_mod_cast hmpos
    have e : ((19 : Nat) : K) + 1 = 20 := by norm_num
    have h1 : 20 * k < (20 * k / m + 1) * m := by
      rw [add_mul, one_mul]
      have := Nat.div_add_mod (20 * k) m
      rw [mul_comm m] at this
      have := Nat.mod_lt (20 * k) hmpos
      omega
    have h2 : (20 * k / m + 1) * m ≤ 20 * k + m := by
      rw [add_mul, one_mul]
      have := Nat.div_mul_le_self (20 * k) m
      omega
    refine ⟨20 * k / m + 1, Nat.le_add_left 1 _, ?_, ?_, ?_⟩
    · by_contra hc
      have : 20 * m ≤ (20 * k / m + 1) * m := Nat.mul_le_mul_right m (Nat.le_of_not_lt fun h => hc (Nat.le_of_lt_succ h))
      have : 20 * k' ≤ 20 * m := Nat.mul_le_mul_left 20 hle
      omega
    · rw [not_le, e, div_lt_div_iff₀ hmK (by norm_num)]
      have : (20 : K) * k < ((20 * k / m + 1 : Nat) : K) * m := by exact_mod_cast h1
      linarith
    · rw [e, div_le_div_iff₀ (by norm_num) hmK]
      have : ((20 * k / m + 1 : Nat) : K) * m ≤ (20 : K) * k' := by
        have : (20 * k / m + 1) * m ≤ 20 * k' := by omega
        exact_mod_cast this
      linarith
  rcases Nat.lt_trichotomy k k' with hlt | he | hlt
  · obtain ⟨i, i1, i2, i3, i4⟩ := key hlt hk'
    exact absurd ((h i i1 i2).2 i4) i3
  · exact he
  · obtain ⟨i, i1, i2, i3, i4⟩ := key hlt hk
    exact absurd ((h i i1 i2).1 i4) i3

/-- the forecast probability and whether the event happened -/
def votePair (m : Nat) (p : Nat × Bool) : K × K := ((p.1 : K) / m, happened p)

theorem mates_votes {m : Nat} (hm : m ≤ 19) {P : List (Nat × Bool)} (hP : ∀ p ∈ P, p.1 ≤ m) {p : Nat × Bool} (hp : p ∈ P) :
    mates 19 (P.map (votePair (K := K) m)) (votePair m p) = (P.filter fun q => q.1 = p.1).map (votePair m) := by
  unfold mates
  rw [List.filter_map]
  congr 1
  apply List.filter_congr
  intro q hq
  have h : sameBin 19 (votePair (K := K) m p).1 (votePair (K := K) m q).1 ↔ q.1 = p.1 := by
    simp only [votePair]
    constructor
    · intro h; exact (sameBin_votes hm (hP p hp) (hP q hq) h).symm
    · intro h; rw [h]; intro j _ _; exact Iff.rfl
  simp only [Function.comp_apply, h]

theorem bins_votes {m : Nat} (hm : m ≤ 19) {P : List (Nat × Bool)} (hP : ∀ p ∈ P, p.1 ≤ m) {p : Nat × Bool} (hp : p ∈ P) :
    binF 19 (P.map (votePair (K := K) m)) (votePair m p) = (p.1 : K) / m ∧
      binO 19 (P.map (votePair (K := K) m)) (votePair m p) = voteRate P p.1 := by
  unfold binF binO
  rw [mates_votes hm hP hp, List.map_map, List.map_map]
  exact ⟨avg_votes_cell m hp, avg_happened_cell P p.1⟩

/-- for at most 19 members the terms of C13 are those of the specification by votes -/
theorem terms_votes {m : Nat} (hm : m ≤ 19) {P : List (Nat × Bool)} (hP : ∀ p ∈ P, p.1 ≤ m) :
    specRel 19 (P.map (votePair (K := K) m)) = voteRel m P ∧ specRes 19 (P.map (votePair (K := K) m)) = voteRes P ∧
      specUnc (P.map (votePair (K := K) m)) = voteUnc P ∧ specBrier (P.map (votePair (K := K) m)) = voteBrier m P := by
  have hb : avg ((P.map (votePair (K := K) m)).map Prod.snd) = baseRate P := by
    rw [List.map_map]; exact avg_happened P
  refine ⟨?_, ?_, ?_, ?_⟩
  · unfold specRel voteRel
    rw [List.map_map]
    congr 1
    apply List.map_congr_left
    intro p hp
    obtain ⟨h1, h2⟩ := bins_votes (K := K) hm hP hp
    simp only [Function.comp_apply, h1, h2]
  · unfold specRes voteRes
    rw [hb, List.map_map]
    congr 1
    apply List.map_congr_left
    intro p hp
    obtain ⟨h1, h2⟩ := bins_votes (K := K) hm hP hp
    simp only [Function.comp_apply, h2]
  · unfold specUnc voteUnc
    rw [hb]
  · unfold specBrier voteBrier
    rw [List.map_map]
    rfl

/-! ### the public methods -/

section Api
variable [FloorSemiring K] {A : Type} {I : ArgInfo A} {mids : FS (PyVal K) → Path → List (FS (PyVal K))} {c : Cfg K}
  {emb : A → Arg K}

/-- the number of members -/
def memberCount (f : NDArr (Fl K)) (ax : Int) : Nat := f.shape.getD (axisNum f.shape.length ax) 0

open Classical in
/-- the forecasts pooled at position `k`: how many members predict the event, and whether it happened -/
noncomputable def votesAt (isOver : Bool) (t : Thr K) (f o : NDArr (Fl K)) (ax : Int) (B k : List Nat) : List (Nat × Bool) :=
  (fiberIdx o.shape B k).map fun i => (votes isOver t f ax i, decide (Event isOver t o i))

theorem ensProb_votes (isOver : Bool) (t : Thr K) (f : NDArr (Fl K)) {ax : Int} (hax : AxisOK f.shape.length ax)
    (hm : memberCount f ax ≠ 0) {i : List Nat} (hi : InB (posShape f.shape ax) i) :
    votes isOver t f ax i ≤ memberCount f ax ∧
      ensProb isOver t f ax i = some ((votes isOver t f ax i : K) / (memberCount f ax : K)) := by
  have hlen : (membersAt f ax i).length = memberCount f ax := membersAt_length f hax hi
  have hM : membersAt f ax i ≠ [] := by
    intro h; rw [h] at hlen; exact hm hlen.symm
  have hle : (membersAt f ax i).countP (fun x => Fl.le x (thrAt t i)) ≤ memberCount f ax := by
    rw [← hlen]; exact List.countP_le_length
  have hfr : fractionLe (membersAt f ax i) (thrAt t i) =
      some ((((membersAt f ax i).countP fun x => Fl.le x (thrAt t i) : Nat) : K) / (memberCount f ax : K)) := by
    unfold fractionLe
    rw [if_neg hM, hlen, ← List.countP_eq_length_filter]
    congr 4
    funext x
    rw [Bool.eq_iff_iff, le_iff_LeP]
    simp
  have hmK : (memberCount f ax : K) ≠ 0 := by exact_mod_cast hm
  unfold ensProb
  rw [votes_count, hfr, hlen]
  cases isOver with
  | false => exact ⟨hle, rfl⟩
  | true =>
    refine ⟨Nat.sub_le _ _, ?_⟩
    simp only [if_true, Fl.sub, Fl.lift2, Option.some.injEq]
    rw [Nat.cast_sub hle, sub_div, div_self hmK]

/-- `brier_decomp()` and `brier()` of an ensemble: the terms of the pairs of fraction of members and event -/
theorem decomp_result {oi o : Obj (EnsX K)} {w w' : World (PyVal K)}
    (h : construct (ensPrims c emb) mids oi w = (.ok o, w')) (hb : oi.boot = .none) (hm : c.method = .moments)
    {a : A} (ha : Printable I a) {t : Thr K} (hemb : emb a = .thr t) (ht : ThrOK t oi.ext.o.shape)
    (hne : oi.ext.o.shape.prod ≠ 0) {B : List Nat} (hB : SliceAxes oi.ext.o.shape B)
    (havg : axesOf oi.avg = some (B.map Int.ofNat)) (isOver : Bool)
    (hmem : ∀ ax, o.ext.axis = some ax → memberCount oi.ext.f ax ≠ 0) (w1 w2 : World (PyVal K)) :
    ∃ ax rel res unc r, o.ext.axis = some ax ∧
      result .ensemble I (ensPrims c emb) mids (.slot (.brierDecomp (overArg isOver a) (belowArg isOver a))) (unsaved o) w1 =
        .ok (some (.triple rel res unc)) ∧
      result .ensemble I (ensPrims c emb) mids (.slot (.brier (overArg isOver a) (belowArg isOver a))) (unsaved o) w2 =
        .ok (some (.num r)) ∧
      ∀ k, InB (dropAxes B oi.ext.o.shape) k →
        let P := votesAt isOver t oi.ext.f oi.ext.o ax B k
        let Q := P.map (votePair (K := K) (memberCount oi.ext.f ax))
        P ≠ [] ∧ (∀ p ∈ P, p.1 ≤ memberCount oi.ext.f ax) ∧ rel.get k = some (specRel 19 Q) ∧ res.get k = some (specRes 19 Q) ∧
          unc.get k = some (specUnc Q) ∧ r.get k = some (voteBrier (memberCount oi.ext.f ax) P) := by
  classical
  obtain ⟨ax, fc, h1, -, h3, h4, h5, -, -⟩ := C75_construct_ens h
  have hsh := h1.shape
  rw [h3, h4] at hsh
  have hax : AxisOK oi.ext.f.shape.length ax := by have := h1.axisOK; rwa [h3] at this
  have hM := hmem ax h1.axis
  obtain ⟨p, p1, p2, p3⟩ := C75_ens_cdf (mids := mids) (I := I) h1 hm ha hemb (by rw [h4]; exact ht) (by rw [h4]; exact hne)
    isOver w1
  rw [h4] at p2
  rw [h3, h4] at p3
  have hP := shared_ens c emb
  obtain ⟨ob, -, b2, b3⟩ := binarize_event oi.ext.o t isOver ht
  have hob : IsEvents isOver t o.ext.o ob := by rw [h4]; exact ⟨b2, b3⟩
  have ht' : ThrOK t o.ext.o.shape := by rw [h4]; exact ht
  have haxis : axisArg o.avg = .ok (some (B.map Int.ofNat)) := by
    have := axisArg_ready h1.avg
    rwa [havg] at this
  have hpo : p.shape = (boolNum (K := K) ob).shape := p2.trans b2.symm
  have htp : (takeAxes B p.shape).prod ≠ 0 := by
    intro h0
    have := prod_take_drop p.shape B
    rw [h0, mul_zero, p2] at this
    exact hne this
  -- it returns
  obtain ⟨r3, hr3⟩ := C13_defined c.skipNan p (boolNum (K := K) ob) B hpo (by rw [p2]; exact hB) htp
  obtain ⟨nm, hn⟩ := (cdf_runs p1).2.1
  obtain ⟨ps, hps⟩ := obArgs_of_cdf hn
  obtain ⟨nm', hn'⟩ := toName_ok hps none
  have hv : result .ensemble I (ensPrims c emb) mids (.slot (.brierDecomp (overArg isOver a) (belowArg isOver a)))
      (unsaved o) w1 = .ok (some (.triple r3.1 r3.2.1 r3.2.2)) := by
    have hbody : (slotBody .ensemble I (ensPrims c emb) o.ext o.avg o.boot
        (.brierDecomp (overArg isOver a) (belowArg isOver a))).run none w1 = (.ok (.triple r3.1 r3.2.1 r3.2.2), w1) := by
      simp only [slotBody]
      rw [withProb_run p1 (binarize_events hP hemb ht' hob)]
      simp only [h5, hb, if_true, Prog.run, hP.brierDecomp, basePrims, PyVal.asNum, PyVal.asBool, haxis, bind, Except.bind, hr3]
      rfl
    rw [result_slot (s := .brierDecomp (overArg isOver a) (belowArg isOver a)) rfl hn' hbody]
    rfl
  obtain ⟨rel, res, unc, v1, v2⟩ := C75_brier_decomp_values hP hemb isOver (h5.trans hb) haxis p1 ht' (by rw [p2, h4])
    (by rw [p2]; exact hB) hob hv
  cases v1
  obtain ⟨ax', r, q1, q2, q3, q4⟩ := C75_ens_brier (I := I) h hb hm ha hemb ht hne (by
    rw [havg]; exact optOK_ofNat hB.nodup hB.lt) isOver w2
  rw [h1.axis] at q1
  cases q1
  rw [havg, nums_ofNat] at q3 q4
  refine ⟨ax, r3.1, r3.2.1, r3.2.2, r, h1.axis, hv, q2, fun k hk => ?_⟩
  intro P Q
  have h0 : 0 ∉ oi.ext.o.shape := by simpa [List.prod_eq_zero_iff] using hne
  have hL := fiberIdx_ne h0 hk
  have hin : ∀ i ∈ fiberIdx oi.ext.o.shape B k, InB (posShape oi.ext.f.shape ax) i := fun i hi => by
    rw [← hsh]; exact (mem_fiberIdx.1 hi).1
  have hprob : ∀ i ∈ fiberIdx oi.ext.o.shape B k, p.get i =
      some ((votes isOver t oi.ext.f ax i : K) / (memberCount oi.ext.f ax : K)) := fun i hi => by
    rw [p3 i (mem_fiberIdx.1 hi).1]; exact (ensProb_votes isOver t oi.ext.f hax hM (hin i hi)).2
  have hcomp : complete (pairsAt p (boolNum (K := K) ob) B k) = Q := by
    have e : pairsAt p (boolNum (K := K) ob) B k = Q.map fun q => (some q.1, some q.2) := by
      simp only [pairsAt, Q, P, votesAt, List.map_map]
      rw [p2]
      apply List.map_congr_left
      intro i hi
      have hi' := (mem_fiberIdx.1 hi).1
      have hg := get_map (b2k (K := K)) ob (i := i) (by rw [b2]; exact hi')
      simp only [Function.comp_apply, votePair, happened]
      rw [hprob i hi, boolNum, hg]
      have := b3 i hi'
      by_cases hE : Event isOver t oi.ext.o i
      · simp [hE, this.2 hE, b2k]
      · have hf : ob.get i = false := by rw [← Bool.not_eq_true]; exact fun h => hE (this.1 h)
        simp [hE, hf, b2k]
    rw [e]
    unfold complete
    rw [List.filterMap_map]
    exact List.filterMap_some
  obtain ⟨g1, g2, g3, -⟩ := v2 k (by rw [p2]; exact hk) (fun i hi => by
    rw [p2] at hi; rw [hprob i hi]; simp) (by rw [p2]; exact hL)
  rw [hcomp] at g1 g2 g3
  refine ⟨by simpa [P, votesAt] using hL, ?_, g1, g2, g3, ?_⟩
  · intro q hq
    obtain ⟨i, hi, rfl⟩ := List.mem_map.1 hq
    exact (ensProb_votes isOver t oi.ext.f hax hM (hin i hi)).1
  · have := isAvg_some' (h := fun i => ((votes isOver t oi.ext.f ax i : K) / (memberCount oi.ext.f ax : K) -
        indicator (Event isOver t oi.ext.o i)) ^ 2) hL (fun i hi => by
      rw [(ensProb_votes isOver t oi.ext.f hax hM (hin i hi)).2]; rfl) (q4 k (by rw [q3]; exact hk))
    rw [this]
    congr 1
    simp only [voteBrier, P, votesAt, List.map_map]
    congr 1
    apply List.map_congr_left
    intro i _
    simp only [Function.comp_apply, indicator, decide_eq_true_eq]

/-- **C110**. For an ensemble of at most 19 members, without bootstrapping and for a chosen `avg_axis`, `brier_decomp()`
returns at every kept position the reliability, resolution and uncertainty of the forecasts pooled there with one cell per
number of members that predict the event, `brier()` returns their Brier score, and the latter is exactly reliability minus
resolution plus uncertainty. -/
theorem C110_adds_up {oi o : Obj (EnsX K)} {w w' : World (PyVal K)}
    (h : construct (ensPrims c emb) mids oi w = (.ok o, w')) (hb : oi.boot = .none) (hm : c.method = .moments)
    {a : A} (ha : Printable I a) {t : Thr K} (hemb : emb a = .thr t) (ht : ThrOK t oi.ext.o.shape)
    (hne : oi.ext.o.shape.prod ≠ 0) {B : List Nat} (hB : SliceAxes oi.ext.o.shape B)
    (havg : axesOf oi.avg = some (B.map Int.ofNat)) (isOver : Bool)
    (hmem : ∀ ax, o.ext.axis = some ax → 1 ≤ memberCount oi.ext.f ax ∧ memberCount oi.ext.f ax ≤ 19)
    (w1 w2 : World (PyVal K)) :
    ∃ ax rel res unc r, o.ext.axis = some ax ∧
      result .ensemble I (ensPrims c emb) mids (.slot (.brierDecomp (overArg isOver a) (belowArg isOver a))) (unsaved o) w1 =
        .ok (some (.triple rel res unc)) ∧
      result .ensemble I (ensPrims c emb) mids (.slot (.brier (overArg isOver a) (belowArg isOver a))) (unsaved o) w2 =
        .ok (some (.num r)) ∧
      ∀ k, InB (dropAxes B oi.ext.o.shape) k →
        let P := votesAt isOver t oi.ext.f oi.ext.o ax B k
        let m := memberCount oi.ext.f ax
        ∃ x y z b, rel.get k = some x ∧ res.get k = some y ∧ unc.get k = some z ∧ r.get k = some b ∧ b = x - y + z ∧
          x = voteRel m P ∧ y = voteRes P ∧ z = voteUnc P ∧ b = voteBrier m P := by
  obtain ⟨ax, rel, res, unc, r, h1, h2, h3, h4⟩ := decomp_result h hb hm ha hemb ht hne hB havg isOver
    (fun ax hax => by have := (hmem ax hax).1; omega) w1 w2
  refine ⟨ax, rel, res, unc, r, h1, h2, h3, fun k hk => ?_⟩
  intro P m
  obtain ⟨g0, g1, g2, g3, g4, g5⟩ := h4 k hk
  obtain ⟨t1, t2, t3, -⟩ := terms_votes (K := K) (hmem ax h1).2 g1
  rw [t1] at g2
  rw [t2] at g3
  rw [t3] at g4
  exact ⟨_, _, _, _, g2, g3, g4, g5, C110_identity _ g0, rfl, rfl, rfl, rfl⟩

theorem specs_two {p : K} (hp : (19 : K) / 20 ≤ p) :
    specRel 19 [(p, (0 : K)), (1, 1)] = (p / 2) ^ 2 ∧ specRes 19 [(p, (0 : K)), (1, 1)] = 0 ∧
      specUnc [(p, (0 : K)), (1, 1)] = 1 / 4 := by
  have hsb : ∀ x y : K, (19 : K) / 20 ≤ x → (19 : K) / 20 ≤ y → sameBin 19 x y := by
    intro x y hx hy j _ h2
    have : (j : K) / (((19 : Nat) : K) + 1) ≤ 19 / 20 := by
      have e : ((19 : Nat) : K) + 1 = 20 := by norm_num
      rw [e]
      exact div_le_div_of_nonneg_right (by exact_mod_cast h2) (by norm_num)
    exact ⟨fun _ => this.trans hy, fun _ => this.trans hx⟩
  have h1 : (19 : K) / 20 ≤ 1 := by norm_num
  have hm : ∀ q ∈ [(p, (0 : K)), (1, 1)], mates 19 [(p, (0 : K)), (1, 1)] q = [(p, 0), (1, 1)] := by
    intro q hq
    have hq1 : (19 : K) / 20 ≤ q.1 := by
      simp only [List.mem_cons, List.not_mem_nil, or_false] at hq
      rcases hq with rfl | rfl
      · exact hp
      · exact h1
    unfold mates
    rw [List.filter_eq_self]
    intro q' hq'
    have hq2 : (19 : K) / 20 ≤ q'.1 := by
      simp only [List.mem_cons, List.not_mem_nil, or_false] at hq'
      rcases hq' with rfl | rfl
      · exact hp
      · exact h1
    simpa using hsb _ _ hq1 hq2
  have m1 := hm (p, 0) (by simp)
  have m2 := hm (1, 1) (by simp)
  refine ⟨?_, ?_, ?_⟩
  · simp only [specRel, List.map_cons, List.map_nil, binF, binO, m1, m2, avg, List.sum_cons, List.sum_nil, List.length_cons,
      List.length_nil]
    push_cast
    ring
  · simp only [specRes, List.map_cons, List.map_nil, binO, m1, m2, avg, List.sum_cons, List.sum_nil, List.length_cons,
      List.length_nil]
    push_cast
    ring
  · simp only [specUnc, List.map_cons, List.map_nil, avg, List.sum_cons, List.sum_nil, List.length_cons,
      List.length_nil]
    push_cast
    norm_num

/-- **C110**, the limit: with 20 or more members the terms need not add up.  If two forecasts are pooled, one with all but
one of the members predicting the event that does not happen, and one with all members predicting it and it happens, then
the Brier score is not reliability minus resolution plus uncertainty. -/
theorem C110_twenty {oi o : Obj (EnsX K)} {w w' : World (PyVal K)}
    (h : construct (ensPrims c emb) mids oi w = (.ok o, w')) (hb : oi.boot = .none) (hm : c.method = .moments)
    {a : A} (ha : Printable I a) {t : Thr K} (hemb : emb a = .thr t) (ht : ThrOK t oi.ext.o.shape)
    (hne : oi.ext.o.shape.prod ≠ 0) {B : List Nat} (hB : SliceAxes oi.ext.o.shape B)
    (havg : axesOf oi.avg = some (B.map Int.ofNat)) (isOver : Bool) {m : Nat} (hmem : 20 ≤ m)
    (hax : ∀ ax, o.ext.axis = some ax → memberCount oi.ext.f ax = m) (w1 w2 : World (PyVal K)) {k : List Nat}
    (hk : InB (dropAxes B oi.ext.o.shape) k)
    (hvotes : ∀ ax, o.ext.axis = some ax → votesAt isOver t oi.ext.f oi.ext.o ax B k = [(m - 1, false), (m, true)]) :
    ∃ rel res unc r x y z b,
      result .ensemble I (ensPrims c emb) mids (.slot (.brierDecomp (overArg isOver a) (belowArg isOver a))) (unsaved o) w1 =
        .ok (some (.triple rel res unc)) ∧
      result .ensemble I (ensPrims c emb) mids (.slot (.brier (overArg isOver a) (belowArg isOver a))) (unsaved o) w2 =
        .ok (some (.num r)) ∧
      rel.get k = some x ∧ res.get k = some y ∧ unc.get k = some z ∧ r.get k = some b ∧ b < x - y + z := by
  obtain ⟨ax, rel, res, unc, r, h1, h2, h3, h4⟩ := decomp_result h hb hm ha hemb ht hne hB havg isOver
    (fun ax hx => by rw [hax ax hx]; omega) w1 w2
  obtain ⟨-, -, g2, g3, g4, g5⟩ := h4 k hk
  rw [hax ax h1, hvotes ax h1] at g2 g3 g4 g5
  have hm0 : (0 : K) < m := by exact_mod_cast (by omega : 0 < m)
  have hm20 : (20 : K) ≤ m := by exact_mod_cast hmem
  have e1 : ((m - 1 : Nat) : K) / m = 1 - 1 / m := by
    rw [Nat.cast_sub (by omega), sub_div, div_self hm0.ne', Nat.cast_one]
  have hinv : (1 : K) / m ≤ 1 / 20 := one_div_le_one_div_of_le (by norm_num) hm20
  have hinv0 : (0 : K) < 1 / m := by positivity
  have hp : (19 : K) / 20 ≤ ((m - 1 : Nat) : K) / m := by rw [e1]; linarith
  obtain ⟨s1, s2, s3⟩ := specs_two hp
  have eQ : [(m - 1, false), (m, true)].map (votePair (K := K) m) = [(((m - 1 : Nat) : K) / m, 0), (1, 1)] := by
    simp [votePair, happened, div_self hm0.ne']
  rw [eQ, s1] at g2
  rw [eQ, s2] at g3
  rw [eQ, s3] at g4
  refine ⟨rel, res, unc, r, _, _, _, _, h2, h3, g2, g3, g4, g5, ?_⟩
  simp only [voteBrier, List.map_cons, List.map_nil, avg, List.sum_cons, List.sum_nil, List.length_cons, List.length_nil,
    div_self hm0.ne', e1]
  simp only [Bool.false_eq_true, if_false, if_true]
  push_cast
  nlinarith

end Api

/-! ### rounded arithmetic -/

/-- the error bound of the decomposition of `n` pooled forecasts -/
def decompErr (u : K) (n : Nat) : K := 4 * ((1 + u) ^ (2 * n + 41) - 1)

theorem close8 (hu : 0 ≤ u) {k m : Nat} (hk : k ≤ m) {v : K} (hv : |v - (k : K) / m| ≤ 8 * u) : Close u 8 1 ((k : K) / m) v := by
  refine ⟨?_, hv.trans ?_⟩
  · rw [abs_of_nonneg (by positivity)]
    exact div_le_one_of_le₀ (by exact_mod_cast hk) (by positivity)
  · have := one_add_mul_le_pow (show (-2 : K) ≤ u by linarith) 8
    push_cast at this
    linarith

/-- **C110**: the decomposition in rounded arithmetic.  The machine numbers `g k` of the probabilities given by `k` of at
most 19 members get a bin each, and the three terms are those of the exact fractions up to rounding. -/
theorem C110_slice (hR : Accurate R u) (hu : u ≤ 1 / 10 ^ 10) (S : SumOrder) (skip : Bool) {m : Nat} (hm : m ≤ 19)
    {P : List (Nat × Bool)} (hP : P ≠ []) (g : Nat → K) (hg : ∀ p ∈ P, p.1 ≤ m ∧ |g p.1 - (p.1 : K) / m| ≤ 8 * u) :
    ∃ rel res unc, funcBrierDecompR R S skip 19 (P.map fun p => some (g p.1)) (P.map fun p => some (happened p)) =
        .ok [some rel, some res, some unc] ∧
      |rel - voteRel m P| ≤ decompErr u P.length ∧ |res - voteRes P| ≤ decompErr u P.length ∧
      |unc - voteUnc P| ≤ decompErr u P.length := by
  obtain ⟨rel, res, unc, h1, h2, h3, h4⟩ := decompR_close hR hu S skip hP (x := fun p => g p.1)
    (e := fun p : Nat × Bool => (p.1 : K) / m) (o := happened) (fun p hp => close8 hR.1 (hg p hp).1 (hg p hp).2)
    (fun p _ => by unfold happened; split <;> simp)
  have hcell : ∀ p ∈ P, (P.filter fun q => innerBin R (g q.1) = innerBin R (g p.1)) = P.filter fun q => q.1 = p.1 := by
    intro p hp
    apply List.filter_congr
    intro q hq
    simp only [decide_eq_decide]
    constructor
    · intro h
      rcases Nat.lt_trichotomy q.1 p.1 with hlt | he | hlt
      · have := votes_apart hR hu hm hlt (hg p hp).1 (hg q hq).2 (hg p hp).2
        omega
      · exact he
      · have := votes_apart hR hu hm hlt (hg q hq).1 (hg p hp).2 (hg q hq).2
        omega
    · intro h; rw [h]
  have c1 : ∀ p ∈ P, cellAvg (fun q : Nat × Bool => innerBin R (g q.1)) P (fun q : Nat × Bool => (q.1 : K) / m) p = (p.1 : K) / m := by
    intro p hp
    unfold cellAvg
    rw [hcell p hp]
    exact avg_votes_cell m hp
  have c2 : ∀ p ∈ P, cellAvg (fun q : Nat × Bool => innerBin R (g q.1)) P (happened (K := K)) p = voteRate P p.1 := by
    intro p hp
    unfold cellAvg
    rw [hcell p hp]
    exact avg_happened_cell P p.1
  refine ⟨rel, res, unc, h1, ?_, ?_, ?_⟩
  · have e : avg (P.map fun p => (cellAvg (fun q : Nat × Bool => innerBin R (g q.1)) P (fun q : Nat × Bool => (q.1 : K) / m) p -
        cellAvg (fun q : Nat × Bool => innerBin R (g q.1)) P (happened (K := K)) p) ^ 2) = voteRel m P := by
      unfold voteRel
      congr 1
      apply List.map_congr_left
      intro p hp
      rw [c1 p hp, c2 p hp]
    have := h2.2
    rw [e] at this
    rw [decompErr, mul_comm]; exact this
  · have e : avg (P.map fun p => (cellAvg (fun q : Nat × Bool => innerBin R (g q.1)) P (happened (K := K)) p -
        avg (P.map (happened (K := K)))) ^ 2) = voteRes P := by
      unfold voteRes
      congr 1
      apply List.map_congr_left
      intro p hp
      rw [c2 p hp, avg_happened]
    have := h3.2
    rw [e] at this
    rw [decompErr, mul_comm]; exact this
  · have := h4.2
    rw [avg_happened] at this
    rw [decompErr, mul_comm]; exact this

/-! ### the ensemble in rounded arithmetic -/

section Rounded
variable [FloorSemiring K]

theorem voteRate_perm {P Q : List (Nat × Bool)} (h : Q.Perm P) (k : Nat) : (voteRate Q k : K) = voteRate P k := by
  unfold voteRate hits
  rw [(h.filter _).countP_eq, (h.filter _).length_eq]

theorem baseRate_perm {P Q : List (Nat × Bool)} (h : Q.Perm P) : (baseRate Q : K) = baseRate P := by
  unfold baseRate hits
  rw [h.countP_eq, h.length_eq]

theorem terms_perm (m : Nat) {P Q : List (Nat × Bool)} (h : Q.Perm P) :
    (voteRel m Q : K) = voteRel m P ∧ (voteRes Q : K) = voteRes P ∧ (voteUnc Q : K) = voteUnc P := by
  refine ⟨?_, ?_, ?_⟩
  · unfold voteRel
    simp only [voteRate_perm h]
    exact avg_perm (h.map _)
  · unfold voteRes
    simp only [voteRate_perm h, baseRate_perm h]
    exact avg_perm (h.map _)
  · unfold voteUnc
    rw [baseRate_perm h]

theorem perm_map_exists {α β : Type} {φ : α → β} {l : List β} {P : List α} (h : l.Perm (P.map φ)) :
    ∃ Q : List α, Q.Perm P ∧ l = Q.map φ := by
  have h2 : List.Forall₂ (fun x p => x = φ p) (P.map φ) P := by
    rw [List.forall₂_map_left_iff, List.forall₂_same]
    exact fun _ _ => rfl
  obtain ⟨Q, q1, q2⟩ := List.perm_comp_forall₂ h h2
  refine ⟨Q, q2, ?_⟩
  clear h2 q2 h
  induction q1 with
  | nil => rfl
  | cons h _ ih => rw [List.map_cons, ← h, ← ih]

/-- the machine number stored when `k` of `m` members predict the event -/
def probOf (R : Rounding K) (isOver : Bool) (m k : Nat) : K :=
  if isOver then R.rnd (1 - R.rnd (((m - k : Nat) : K) / m)) else R.rnd ((k : K) / m)

theorem probOf_near (hR : Accurate R u) (hu1 : u ≤ 1) (isOver : Bool) {m k : Nat} (hk : k ≤ m) (hm : m ≠ 0) :
    |probOf R isOver m k - (k : K) / m| ≤ 8 * u := by
  have hmpos : (0 : K) < m := by exact_mod_cast Nat.pos_of_ne_zero hm
  have hu := hR.1
  have hnear : ∀ c : Nat, c ≤ m → |R.rnd ((c : K) / m) - (c : K) / m| ≤ u := by
    intro c hc
    have h1 : (0 : K) ≤ (c : K) / m := by positivity
    have h2 : (c : K) / m ≤ 1 := (div_le_one hmpos).2 (by exact_mod_cast hc)
    refine (hR.2 _).trans ?_
    rw [abs_of_nonneg h1]
    have := mul_le_mul_of_nonneg_left h2 hR.1
    rwa [mul_one] at this
  unfold probOf
  cases isOver with
  | false => exact (hnear k hk).trans (by linarith)
  | true =>
    simp only [if_true]
    have n3 := hnear (m - k) (Nat.sub_le _ _)
    have e : ((m - k : Nat) : K) / m = 1 - (k : K) / m := by rw [Nat.cast_sub hk, sub_div, div_self hmpos.ne']
    have h0 : (0 : K) ≤ (k : K) / m := by positivity
    have h1 : (k : K) / m ≤ 1 := (div_le_one hmpos).2 (by exact_mod_cast hk)
    set x := R.rnd (((m - k : Nat) : K) / m) with hx
    have h2 := hR.2 (1 - x)
    rw [e] at n3
    have h3 : |1 - x| ≤ 2 := by
      rw [abs_le] at n3 ⊢
      constructor <;> linarith [n3.1, n3.2]
    have h4 : u * |1 - x| ≤ u * 2 := mul_le_mul_of_nonneg_left h3 hu
    rw [abs_le] at h2 n3 ⊢
    constructor <;> linarith [h2.1, h2.2, n3.1, n3.2]

/-- the stored probabilities are a function of the number of members that predict the event -/
theorem cdfR_votes (R : Rounding K) (isOver : Bool) (workers : Nat) (f : NDArr (Fl K)) {ax : Int} (t : Thr K)
    (hax : AxisOK f.shape.length ax) (ht : ThrOK t (posShape f.shape ax)) (h0 : 0 ∉ f.shape) :
    ∃ c, ensCdfR R workers f ax (if isOver then some t else none) (if isOver then none else some t) = .ok c ∧
      c.shape = posShape f.shape ax ∧ ∀ i, InB (posShape f.shape ax) i →
        votes isOver t f ax i ≤ memberCount f ax ∧
        c.get i = some (probOf R isOver (memberCount f ax) (votes isOver t f ax i)) := by
  have hpos : 0 ∉ posShape f.shape ax := fun h => h0 (List.eraseIdx_subset h)
  have hne : (posShape f.shape ax).prod ≠ 0 := by simpa [List.prod_eq_zero_iff] using hpos
  have hmem : memberCount f ax ≠ 0 := by
    have hlt := axisNum_lt hax
    unfold memberCount
    rw [getD_lt hlt]
    exact fun h => h0 (h ▸ List.getElem_mem hlt)
  obtain ⟨p, p1, p2, p3⟩ := ensToProbBelow_spec workers .kde (momentsColR R) f t hax ht (by decide) hne
  have base : ∀ i, InB (posShape f.shape ax) i → ∃ c : Nat, c ≤ memberCount f ax ∧
      c = (membersAt f ax i).countP (fun x => Fl.le x (thrAt t i)) ∧
      p.get i = some (R.rnd ((c : K) / (memberCount f ax : K))) := by
    intro i hi
    have hlen : (membersAt f ax i).length = memberCount f ax := membersAt_length f hax hi
    refine ⟨_, ?_, rfl, ?_⟩
    · rw [← hlen]; exact List.countP_le_length
    · rw [p3 i hi]
      change momentsColR R (thrAt t i :: membersAt f ax i) = _
      rw [← hlen]
      have hl : (membersAt f ax i).length ≠ 0 := by rw [hlen]; exact hmem
      simp only [momentsColR, List.tail_cons, List.getD_cons_zero, List.length_cons, Nat.add_sub_cancel, if_neg hl]
  cases isOver with
  | false =>
    refine ⟨p, by simp only [Bool.false_eq_true, if_false, ensCdfR, ensToProbBelowR]; exact p1, p2, fun i hi => ?_⟩
    obtain ⟨c, hc, hcd, hpi⟩ := base i hi
    rw [votes_count]
    simp only [Bool.false_eq_true, if_false, ← hcd]
    exact ⟨hc, hpi⟩
  | true =>
    refine ⟨p.map fun x => rop R (· - ·) (some 1) x, by simp only [if_true, ensCdfR, ensToProbBelowR, p1]; rfl, p2,
      fun i hi => ?_⟩
    obtain ⟨c, hc, hcd, hpi⟩ := base i hi
    have hlen : (membersAt f ax i).length = memberCount f ax := membersAt_length f hax hi
    rw [votes_count]
    simp only [if_true, ← hcd, hlen]
    refine ⟨Nat.sub_le _ _, ?_⟩
    rw [get_map _ p (by rw [p2]; exact hi), hpi]
    simp only [probOf, if_true, Nat.sub_sub_self hc]
    rfl

/-- **C110**, in rounded arithmetic: with at most 19 members, `brier_decomp()` returns at every kept position the exact
reliability, resolution and uncertainty of the votes up to rounding, `brier()` the exact Brier score up to rounding, and
the sum of the three terms therefore agrees with the Brier score up to rounding. -/
theorem C110_rounded (hR : Accurate R u) (hu : u ≤ 1 / 10 ^ 10) (S : SumOrder) (skip isOver : Bool) (workers : Nat)
    (f o : NDArr (Fl K)) {ax : Int} (t : Thr K) (hax : AxisOK f.shape.length ax) (ho : o.shape = posShape f.shape ax)
    (ht : ThrOK t o.shape) (h0 : 0 ∉ f.shape) (hm : memberCount f ax ≤ 19) {B : List Nat} (hB : SliceAxes o.shape B) :
    ∃ c b rel res unc q r,
      ensCdfR R workers f ax (if isOver then some t else none) (if isOver then none else some t) = .ok c ∧
      binarizeObs o (if isOver then some t else none) (if isOver then none else some t) = .ok b ∧
      brierDecompR R S skip c (boolNum b) (some (B.map Int.ofNat)) = .ok (rel, res, unc) ∧
      ensBrierR R workers f ax o (if isOver then some t else none) (if isOver then none else some t) = .ok q ∧
      averageR R S skip (some (B.map Int.ofNat)) q = .ok r ∧
      ∀ k, InB (dropAxes B o.shape) k →
        let P := votesAt isOver t f o ax B k
        let m := memberCount f ax
        ∃ x y z s, rel.get k = some x ∧ res.get k = some y ∧ unc.get k = some z ∧ r.get k = some s ∧
          |x - voteRel m P| ≤ decompErr u P.length ∧ |y - voteRes P| ≤ decompErr u P.length ∧
          |z - voteUnc P| ≤ decompErr u P.length ∧ |s - voteBrier m P| ≤ decompErr u P.length ∧
          |s - (x - y + z)| ≤ 4 * decompErr u P.length := by
  have hmem : memberCount f ax ≠ 0 := by
    have hlt := axisNum_lt hax
    unfold memberCount
    rw [getD_lt hlt]
    exact fun h => h0 (h ▸ List.getElem_mem hlt)
  have hu0 := hR.1
  have hu1 : u ≤ 1 := hu.trans (by norm_num)
  have hpos : 0 ∉ o.shape := by rw [ho]; exact fun h => h0 (List.eraseIdx_subset h)
  obtain ⟨c, c1, c2, c3⟩ := cdfR_votes R isOver workers f t hax (by rw [← ho]; exact ht) h0
  obtain ⟨b, b1, b2, b3⟩ := binarize_event o t isOver ht
  rw [← ho] at c2 c3
  have hbs : (boolNum (K := K) b).shape = o.shape := b2
  have hlenP : ∀ k, InB (dropAxes B o.shape) k →
      (votesAt isOver t f o ax B k).length = (takeAxes B o.shape).prod := fun k hk => by
    rw [votesAt, List.length_map, length_fiberIdx hk]
  have hTpos : (takeAxes B o.shape).prod ≠ 0 := by
    intro h
    have := prod_take_drop o.shape B
    rw [h, mul_zero, List.prod_eq_zero_iff] at this
    exact hpos this
  have hw : ∀ (x y r : List (Fl K)), funcBrierDecompR R S skip 19 x y = .ok r → r.length = 3 := by
    intro x y r h
    unfold funcBrierDecompR at h
    cases hd : mapE (digitizeR (decompBinsR R 19)) x with
    | error e => rw [hd] at h; cases h
    | ok bl =>
      rw [hd] at h
      simp only [bind, Except.bind] at h
      split at h
      · cases h
      · cases h; rfl
  obtain ⟨fs, os, w1, w2, w3⟩ := specialWorkflow_spec (fun _ => funcBrierDecompR R S skip 19) 3 (fun _ => hw) c
    (boolNum b) B (c2.trans hbs.symm) hB.nodup (by rw [c2]; exact hB.lt) hB.ne (by rw [c2]; exact hB.kept)
  rw [c2] at w1 w2 w3
  -- what one slice gives
  have hslice : ∀ k, InB (dropAxes B o.shape) k → ∃ x y z,
      funcBrierDecompR R S skip 19 (fs k) (os k) = .ok [some x, some y, some z] ∧
      |x - voteRel (memberCount f ax) (votesAt isOver t f o ax B k)| ≤ decompErr u (votesAt isOver t f o ax B k).length ∧
      |y - voteRes (votesAt isOver t f o ax B k)| ≤ decompErr u (votesAt isOver t f o ax B k).length ∧
      |z - voteUnc (votesAt isOver t f o ax B k)| ≤ decompErr u (votesAt isOver t f o ax B k).length := by
    intro k hk
    obtain ⟨hl, hp⟩ := w1 k hk
    have e : pairsAt c (boolNum (K := K) b) B k = (votesAt isOver t f o ax B k).map fun p =>
        (some (probOf R isOver (memberCount f ax) p.1), some (happened p)) := by
      simp only [pairsAt, votesAt, List.map_map]
      rw [c2]
      apply List.map_congr_left
      intro i hi
      have hi' := (mem_fiberIdx.1 hi).1
      have hg := get_map (b2k (K := K)) b (i := i) (by rw [b2]; exact hi')
      simp only [Function.comp_apply, happened]
      rw [(c3 i hi').2, boolNum, hg]
      have := b3 i hi'
      by_cases hE : Event isOver t o i
      · simp [hE, this.2 hE, b2k]
      · have hf : b.get i = false := by rw [← Bool.not_eq_true]; exact fun h => hE (this.1 h)
        simp [hE, hf, b2k]
    rw [e] at hp
    obtain ⟨Q, q1, q2⟩ := perm_map_exists hp
    have hfs : fs k = Q.map fun p => some (probOf R isOver (memberCount f ax) p.1) := by
      have := congrArg (List.map Prod.fst) q2
      rw [List.map_fst_zip (by omega), List.map_map] at this
      exact this
    have hos : os k = Q.map fun p => some (happened p) := by
      have := congrArg (List.map Prod.snd) q2
      rw [List.map_snd_zip (by omega), List.map_map] at this
      exact this
    have hQ : Q ≠ [] := by
      intro h
      rw [h] at q1
      have := hlenP k hk
      rw [List.nil_perm.1 q1] at this
      exact hTpos this.symm
    obtain ⟨x, y, z, g1, g2, g3, g4⟩ := C110_slice hR hu S skip hm hQ (probOf R isOver (memberCount f ax)) (fun p hp => by
      have hp' := q1.mem_iff.1 hp
      obtain ⟨i, hi, rfl⟩ := List.mem_map.1 hp'
      have h := (c3 i (mem_fiberIdx.1 hi).1).1
      exact ⟨h, probOf_near hR hu1 isOver h hmem⟩)
    obtain ⟨p1, p2, p3⟩ := terms_perm (K := K) (memberCount f ax) q1
    rw [p1, q1.length_eq] at g2
    rw [p2, q1.length_eq] at g3
    rw [p3, q1.length_eq] at g4
    rw [hfs, hos]
    exact ⟨x, y, z, g1, g2, g3, g4⟩
  obtain ⟨ret, hret⟩ := w2 (fun k hk => by
    obtain ⟨x, y, z, g, -⟩ := hslice k hk
    exact ⟨_, g⟩)
  obtain ⟨r1, r2⟩ := w3 ret hret
  rw [if_neg (by omega)] at r1
  obtain ⟨q, r, a1, a2, a3, a4⟩ := C89_brier hR S skip isOver workers f o t hax ho ht h0
    (axes := some (B.map Int.ofNat)) (optOK_ofNat hB.nodup hB.lt)
  rw [nums_ofNat] at a3 a4
  refine ⟨c, b, ret.slice0 0, ret.slice0 1, ret.slice0 2, q, r, c1, b1, ?_, a1, a2, fun k hk => ?_⟩
  · unfold brierDecompR
    rw [hret]
    simp only [bind, Except.bind, r1, List.getD_cons_zero, if_true, pure, Except.pure]
  intro P m
  obtain ⟨x, y, z, g1, g2, g3, g4⟩ := hslice k hk
  obtain ⟨rr, hr1, hr2⟩ := r2 k hk
  rw [g1] at hr1
  cases hr1
  have hs : ∀ j, (ret.slice0 j).get k = ret.get (j :: k) := by
    intro j; unfold slice0; rw [get_ofFn _ (by rw [r1]; exact hk)]
  have g : ∀ c, c < 3 → ret.get (c :: k) = [some x, some y, some z].getD c none := fun c hc => by simpa using hr2 c hc
  have hP : P ≠ [] := by
    intro h
    have := hlenP k hk
    rw [show votesAt isOver t f o ax B k = [] from h] at this
    exact hTpos this.symm
  have hL : fiberIdx o.shape B k ≠ [] := fun h => hP (by simp [P, votesAt, h])
  obtain ⟨s0, s, e1, e2, e3⟩ := a4 k (by rw [a3]; exact hk) (some (voteBrier m P)) (by
    have hl : ((fiberIdx o.shape B k).map fun i => (fractionLe (membersAt f ax i) (thrAt t i)).map fun p =>
        ((if isOver then 1 - p else p) - indicator (Event isOver t o i)) ^ 2) =
        P.map fun p => some (((p.1 : K) / m - if p.2 then 1 else 0) ^ 2) := by
      simp only [P, votesAt, List.map_map]
      apply List.map_congr_left
      intro i hi
      have := (ensProb_votes isOver t f hax hmem (i := i) (by rw [← ho]; exact (mem_fiberIdx.1 hi).1)).2
      unfold ensProb at this
      cases hfr : fractionLe (membersAt f ax i) (thrAt t i) with
      | none => rw [hfr] at this; cases isOver <;> cases this
      | some p =>
        rw [hfr] at this
        have hp : (if isOver then 1 - p else p) = (votes isOver t f ax i : K) / (memberCount f ax : K) := by
          cases isOver with
          | false => simpa using this
          | true => simpa [Fl.sub, Fl.lift2] using this
        simp only [Option.map_some, Function.comp_apply, hp, indicator, m]
        by_cases hE : Event isOver t o i <;> simp [hE]
    rw [hl]
    have e1 : (P.map fun p => some (((p.1 : K) / m - if p.2 then 1 else 0) ^ 2)) =
        (P.map fun p => (((p.1 : K) / m - if p.2 then 1 else 0) ^ 2)).map some := by rw [List.map_map]; rfl
    have e2 : present ((P.map fun p => (((p.1 : K) / m - if p.2 then 1 else 0) ^ 2)).map some) =
        P.map fun p => (((p.1 : K) / m - if p.2 then 1 else 0) ^ 2) := by rw [present, filterMap_id_map_some]
    unfold IsAvg
    rw [e1, e2, if_neg (by simp [hP])]
    rfl)
  cases e1
  have hdepth := depth_lt S hTpos
  have hE : |s - voteBrier m P| ≤ decompErr u P.length := by
    refine e3.trans ?_
    have hle : depth (S.tree (takeAxes B o.shape).prod) + 8 ≤ 2 * P.length + 41 := by
      rw [show P.length = _ from hlenP k hk]; omega
    have h1 : (1 + u) ^ (depth (S.tree (takeAxes B o.shape).prod) + 8) ≤ (1 + u) ^ (2 * P.length + 41) :=
      pow_le_pow_right₀ (by linarith) hle
    have h2 : (1 : K) ≤ (1 + u) ^ (2 * P.length + 41) := one_le_pow₀ (by linarith)
    unfold decompErr
    linarith
  refine ⟨x, y, z, s, ?_, ?_, ?_, e2, g2, g3, g4, hE, ?_⟩
  · rw [hs, g 0 (by omega)]; rfl
  · rw [hs, g 1 (by omega)]; rfl
  · rw [hs, g 2 (by omega)]; rfl
  · have hid := C110_identity (K := K) m hP
    rw [abs_le] at g2 g3 g4 hE ⊢
    constructor <;> linarith [g2.1, g2.2, g3.1, g3.2, g4.1, g4.2, hE.1, hE.2]

end Rounded

/-- **C110**: with 53 binary digits and up to a million pooled forecasts, reliability minus resolution plus uncertainty of
an ensemble of at most 19 members agrees with the Brier score to eight digits, whatever the order of summation. -/
theorem C110_million (S : SumOrder) (skip isOver : Bool) (workers : Nat) (f o : NDArr (Fl ℚ)) {ax : Int} (t : Thr ℚ)
    (hax : AxisOK f.shape.length ax) (ho : o.shape = posShape f.shape ax) (ht : ThrOK t o.shape) (h0 : 0 ∉ f.shape)
    (hm : memberCount f ax ≤ 19) {B : List Nat} (hB : SliceAxes o.shape B) (hn : (takeAxes B o.shape).prod ≤ 1000000) :
    ∃ c b rel res unc q r,
      ensCdfR float64 workers f ax (if isOver then some t else none) (if isOver then none else some t) = .ok c ∧
      binarizeObs o (if isOver then some t else none) (if isOver then none else some t) = .ok b ∧
      brierDecompR float64 S skip c (boolNum b) (some (B.map Int.ofNat)) = .ok (rel, res, unc) ∧
      ensBrierR float64 workers f ax o (if isOver then some t else none) (if isOver then none else some t) = .ok q ∧
      averageR float64 S skip (some (B.map Int.ofNat)) q = .ok r ∧
      ∀ k, InB (dropAxes B o.shape) k → ∃ x y z s, rel.get k = some x ∧ res.get k = some y ∧ unc.get k = some z ∧
        r.get k = some s ∧ |s - (x - y + z)| ≤ 1 / 10 ^ 8 := by
  obtain ⟨c, b, rel, res, unc, q, r, h1, h2, h3, h4, h5, h6⟩ := C110_rounded C89_float64 (by norm_num) S skip isOver workers
    f o t hax ho ht h0 hm hB
  refine ⟨c, b, rel, res, unc, q, r, h1, h2, h3, h4, h5, fun k hk => ?_⟩
  obtain ⟨x, y, z, s, g1, g2, g3, g4, -, -, -, -, g5⟩ := h6 k hk
  refine ⟨x, y, z, s, g1, g2, g3, g4, g5.trans ?_⟩
  have hlen : (votesAt isOver t f o ax B k).length = (takeAxes B o.shape).prod := by
    rw [votesAt, List.length_map, length_fiberIdx hk]
  rw [hlen]
  obtain ⟨N, hN⟩ : ∃ N, N = 2 * (takeAxes B o.shape).prod + 41 := ⟨_, rfl⟩
  unfold decompErr
  rw [← hN]
  have hb : (N : ℚ) ≤ 2000041 := by
    have : N ≤ 2000041 := by omega
    exact_mod_cast this
  have hj : (N : ℚ) * (1 / 2 ^ 53) ≤ 2000041 / 2 ^ 53 := by
    rw [mul_one_div]
    exact div_le_div_of_nonneg_right hb (by positivity)
  have hc : (2000041 / 2 ^ 53 : ℚ) ≤ 1 / 4 / 10 ^ 9 := by norm_num
  have hg := growth (u := (1 / 2 ^ 53 : ℚ)) (by positivity) (j := N) (by linarith)
  have h2 : (N : ℚ) * (1 / 2 ^ 53) / (1 - (N : ℚ) * (1 / 2 ^ 53)) ≤ 1 / 2 / 10 ^ 9 := by
    rw [div_le_iff₀ (by linarith)]
    linarith
  linarith

/-! ### twenty members with 53 binary digits -/

theorem float64_rnd {x : ℚ} (e : ℤ) (n : ℤ) (h1 : 2 ^ e ≤ x) (h2 : x < 2 ^ (e + 1))
    (h3 : (n : ℚ) - 1 / 2 ≤ x / 2 ^ (e - 52) ∧ x / 2 ^ (e - 52) < n + 1 / 2) : float64.rnd x = n * 2 ^ (e - 52) := by
  have hpos : 0 < x := lt_of_lt_of_le (by positivity) h1
  have hlog : Int.log 2 x = e := by
    have a1 := Int.zpow_log_le_self (R := ℚ) (b := 2) (by norm_num) hpos
    have a2 := Int.lt_zpow_succ_log_self (R := ℚ) (b := 2) (by norm_num) x
    push_cast at a1 a2
    have b1 : Int.log 2 x < e + 1 := (zpow_lt_zpow_iff_right₀ (by norm_num : (1 : ℚ) < 2)).1 (a1.trans_lt h2)
    have b2 : e < Int.log 2 x + 1 := (zpow_lt_zpow_iff_right₀ (by norm_num : (1 : ℚ) < 2)).1 (h1.trans_lt a2)
    omega
  have hr : float64.rnd x = (round (x / 2 ^ (e - 52)) : ℚ) * 2 ^ (e - 52) := by
    change binary 52 _ _ = _
    unfold binary
    rw [if_neg hpos.ne', if_pos hpos]
    unfold binaryPos
    rw [hlog]
    rfl
  rw [hr]
  congr 2
  rw [round_eq, Int.floor_eq_iff]
  constructor <;> linarith [h3.1, h3.2]

theorem float64_step : float64.rnd (float64.rnd (1 - 0) / ((19 + 1 : Nat) : ℚ)) = 7205759403792794 / 2 ^ 57 := by
  have e1 : float64.rnd (1 - 0) = 1 := by
    have := float64_rnd (x := 1 - 0) 0 (2 ^ 52) (by norm_num) (by norm_num) (by norm_num)
    rw [this]; norm_num
  rw [e1]
  have := float64_rnd (x := 1 / ((19 + 1 : Nat) : ℚ)) (-5) 7205759403792794 (by norm_num) (by norm_num) (by norm_num)
  rw [this]; norm_num

/-- the third inner edge is above 0.15 (the product is half-way between two machine numbers; rounding half up and half to
even give the same one) -/
theorem float64_edge3 : innerR float64 19 3 = 5404319552844596 / 2 ^ 55 := by
  unfold innerR
  rw [float64_step]
  have h1 := float64_rnd (x := ((3 : Nat) : ℚ) * (7205759403792794 / 2 ^ 57)) (-3) 5404319552844596 (by norm_num) (by norm_num)
    (by norm_num)
  rw [h1]
  have h2 := float64_rnd (x := ((5404319552844596 : ℤ) : ℚ) * 2 ^ (-3 - 52 : ℤ) + 0) (-3) 5404319552844596 (by norm_num) (by norm_num)
    (by norm_num)
  rw [h2]; norm_num

theorem float64_edge2 : innerR float64 19 2 = 7205759403792794 / 2 ^ 56 := by
  unfold innerR
  rw [float64_step]
  have h1 := float64_rnd (x := ((2 : Nat) : ℚ) * (7205759403792794 / 2 ^ 57)) (-4) 7205759403792794 (by norm_num) (by norm_num)
    (by norm_num)
  rw [h1]
  have h2 := float64_rnd (x := ((7205759403792794 : ℤ) : ℚ) * 2 ^ (-4 - 52 : ℤ) + 0) (-4) 7205759403792794 (by norm_num) (by norm_num)
    (by norm_num)
  rw [h2]; norm_num

theorem float64_two : float64.rnd (((2 : Nat) : ℚ) / (20 : Nat)) = 7205759403792794 / 2 ^ 56 := by
  have := float64_rnd (x := ((2 : Nat) : ℚ) / (20 : Nat)) (-4) 7205759403792794 (by norm_num) (by norm_num) (by norm_num)
  rw [this]; norm_num

theorem float64_three : float64.rnd (((3 : Nat) : ℚ) / (20 : Nat)) = 5404319552844595 / 2 ^ 55 := by
  have := float64_rnd (x := ((3 : Nat) : ℚ) / (20 : Nat)) (-3) 5404319552844595 (by norm_num) (by norm_num) (by norm_num)
  rw [this]; norm_num

theorem float64_same_bin : innerBin float64 (float64.rnd (((2 : Nat) : ℚ) / (20 : Nat))) = 2 ∧
    innerBin float64 (float64.rnd (((3 : Nat) : ℚ) / (20 : Nat))) = 2 := by
  have hu : (1 / 2 ^ 53 : ℚ) ≤ 1 / 10 ^ 10 := by norm_num
  have key : ∀ v : ℚ, (7205759403792794 / 2 ^ 56 : ℚ) ≤ v → v < 5404319552844596 / 2 ^ 55 → innerBin float64 v = 2 := by
    intro v h1 h2
    have a := (innerBin_iff C89_float64 hu v (i := 1) (by omega)).1 (by rw [float64_edge2]; exact h1)
    have b := (innerBin_iff C89_float64 hu v (i := 2) (by omega)).not.1 (by rw [float64_edge3]; exact not_le.2 h2)
    omega
  exact ⟨key _ (by rw [float64_two]) (by rw [float64_two]; norm_num), key _ (by rw [float64_three]; norm_num) (by rw [float64_three]; norm_num)⟩

/-- **C110**, with 53 binary digits and 20 members: the bin edge for 0.15 is rounded up and the fraction 3/20 down, so that
the forecasts of 2 and of 3 members out of 20 share a bin.  In exact arithmetic they do not.  For these two forecasts, of
which the second is followed by the event, the three terms add up to more than 0.39, while the Brier score is 0.36625. -/
theorem C110_float_twenty (S : SumOrder) (skip : Bool) :
    (∃ x y z, funcBrierDecompR float64 S skip 19 [some (probOf float64 false 20 2), some (probOf float64 false 20 3)]
        [some 0, some 1] = .ok [some x, some y, some z] ∧ 39 / 100 < x - y + z) ∧
      (voteBrier 20 [(2, false), (3, true)] : ℚ) = 36625 / 100000 ∧
      (voteRel 20 [(2, false), (3, true)] - voteRes [(2, false), (3, true)] + voteUnc [(2, false), (3, true)] : ℚ) =
        36625 / 100000 ∧ ¬ sameBin 19 ((2 : ℚ) / 20) (3 / 20) := by
  have hu : (1 / 2 ^ 53 : ℚ) ≤ 1 / 10 ^ 10 := by norm_num
  have hb : (voteBrier 20 [(2, false), (3, true)] : ℚ) = 36625 / 100000 := by norm_num [voteBrier, avg]
  refine ⟨?_, hb, ?_, ?_⟩
  · obtain ⟨x, y, z, h1, h2, h3, h4⟩ := decompR_close C89_float64 hu S skip (L := [(2, false), (3, true)]) (by simp)
      (x := fun p : Nat × Bool => probOf float64 false 20 p.1) (e := fun p : Nat × Bool => (p.1 : ℚ) / (20 : Nat)) (o := happened)
      (fun p hp => by
        have hp2 : p.1 ≤ 20 := by
          simp only [List.mem_cons, List.not_mem_nil, or_false] at hp
          rcases hp with rfl | rfl <;> simp
        exact close8 C89_float64.1 hp2 (probOf_near C89_float64 (by norm_num) false hp2 (by omega)))
      (fun p _ => by unfold happened; split <;> simp)
    refine ⟨x, y, z, ?_, ?_⟩
    · simpa [happened] using h1
    · obtain ⟨s1, s2⟩ := float64_same_bin
      have hbin : ∀ p ∈ [(2, false), (3, true)], innerBin float64 (probOf float64 false 20 p.1) = 2 := by
        intro p hp
        simp only [List.mem_cons, List.not_mem_nil, or_false] at hp
        rcases hp with rfl | rfl
        · exact s1
        · exact s2
      have hcell : ∀ (g : Nat × Bool → ℚ), ∀ p ∈ [(2, false), (3, true)],
          cellAvg (fun q : Nat × Bool => innerBin float64 (probOf float64 false 20 q.1)) [(2, false), (3, true)] g p =
            avg ([(2, false), (3, true)].map g) := by
        intro g p hp
        unfold cellAvg
        congr 2
        rw [List.filter_eq_self]
        intro q hq
        simp only [hbin q hq, hbin p hp, decide_true]
      have e1 := h2.2
      have e2 := h3.2
      have e3 := h4.2
      rw [show (avg (([(2, false), (3, true)] : List (Nat × Bool)).map fun i =>
          (cellAvg (fun q : Nat × Bool => innerBin float64 (probOf float64 false 20 q.1)) [(2, false), (3, true)]
            (fun p : Nat × Bool => (p.1 : ℚ) / (20 : Nat)) i -
          cellAvg (fun q : Nat × Bool => innerBin float64 (probOf float64 false 20 q.1)) [(2, false), (3, true)] happened i) ^ 2)) =
          9 / 64 from ?_] at e1
      · rw [show (avg (([(2, false), (3, true)] : List (Nat × Bool)).map fun i =>
          (cellAvg (fun q : Nat × Bool => innerBin float64 (probOf float64 false 20 q.1)) [(2, false), (3, true)] happened i -
            avg (([(2, false), (3, true)] : List (Nat × Bool)).map (happened (K := ℚ)))) ^ 2)) = 0 from ?_] at e2
        · rw [show avg (([(2, false), (3, true)] : List (Nat × Bool)).map (happened (K := ℚ))) = 1 / 2 by
            norm_num [avg, happened]] at e3
          have hsm : (((1 + 1 / 2 ^ 53 : ℚ)) ^ (2 * ([(2, false), (3, true)] : List (Nat × Bool)).length + 41) - 1) * 4 ≤ 1 / 10 ^ 10 := by
            norm_num
          have e1' := e1.trans hsm
          have e2' := e2.trans hsm
          have e3' := e3.trans hsm
          rw [abs_le] at e1' e2' e3'
          linarith [e1'.1, e2'.2, e3'.1]
        · simp only [List.map_cons, List.map_nil, hcell happened (2, false) (by simp), hcell happened (3, true) (by simp)]
          norm_num [avg, happened]
      · simp only [List.map_cons, List.map_nil, hcell happened (2, false) (by simp), hcell happened (3, true) (by simp),
          hcell (fun p : Nat × Bool => (p.1 : ℚ) / (20 : Nat)) (2, false) (by simp),
          hcell (fun p : Nat × Bool => (p.1 : ℚ) / (20 : Nat)) (3, true) (by simp)]
        norm_num [avg, happened]
  · rw [← C110_identity 20 (by simp), hb]
  · intro h
    have := (h 3 (by omega) (by omega)).2 (by norm_num)
    norm_num at this

/-! ### the hypotheses are met -/

/-- twenty members at two times: all but one above 0 before a dry day, all above 0 before a wet one -/
def twentyX : EnsX ℚ := ⟨⟨[2, 20], List.replicate 19 (some 1) ++ [some (-1)] ++ List.replicate 20 (some 1), rfl⟩,
  ⟨[2], [some (-1), some 1], rfl⟩, some (-1), fun f ax => reduceAxes mean f (some [ax]), none⟩

/-- three members of those -/
def threeX : EnsX ℚ := ⟨⟨[2, 3], [some 1, some 1, some (-1), some 1, some 1, some 1], rfl⟩,
  ⟨[2], [some (-1), some 1], rfl⟩, some (-1), fun f ax => reduceAxes mean f (some [ax]), none⟩

theorem slice_two : SliceAxes [2] [0] := ⟨by simp, by simp, by simp, by decide⟩

theorem wet_dry : ¬ Event true (.scalar (some 0)) (⟨[2], [some (-1), some 1], rfl⟩ : NDArr (Fl ℚ)) [0] ∧
    Event true (.scalar (some 0)) (⟨[2], [some (-1), some 1], rfl⟩ : NDArr (Fl ℚ)) [1] := by
  have g0 : (⟨[2], [some (-1), some 1], rfl⟩ : NDArr (Fl ℚ)).get [0] = some (-1) := by decide +kernel
  have g1 : (⟨[2], [some (-1), some 1], rfl⟩ : NDArr (Fl ℚ)).get [1] = some 1 := by decide +kernel
  simp only [Event, if_true, g0, g1, thrAt, LtP]
  norm_num

theorem twenty_votes : votesAt true (.scalar (some 0)) twentyX.f twentyX.o (-1) [0] [] = [(19, false), (20, true)] := by
  have e : fiberIdx twentyX.o.shape [0] [] = [[0], [1]] := by decide
  have c0 : (membersAt twentyX.f (-1) [0]).length - (membersAt twentyX.f (-1) [0]).countP (fun x => Fl.le x (some 0)) = 19 := by
    decide +kernel
  have c1 : (membersAt twentyX.f (-1) [1]).length - (membersAt twentyX.f (-1) [1]).countP (fun x => Fl.le x (some 0)) = 20 := by
    decide +kernel
  obtain ⟨v0, v1⟩ := wet_dry
  unfold votesAt
  rw [e]
  simp only [List.map_cons, List.map_nil, votes_count, if_true, thrAt, c0, c1]
  have w0 : ¬ Event true (.scalar (some 0)) twentyX.o [0] := v0
  have w1 : Event true (.scalar (some 0)) twentyX.o [1] := v1
  simp [w0, w1]

theorem three_votes : votesAt true (.scalar (some 0)) threeX.f threeX.o (-1) [0] [] = [(2, false), (3, true)] := by
  have e : fiberIdx threeX.o.shape [0] [] = [[0], [1]] := by decide
  have c0 : (membersAt threeX.f (-1) [0]).length - (membersAt threeX.f (-1) [0]).countP (fun x => Fl.le x (some 0)) = 2 := by
    decide +kernel
  have c1 : (membersAt threeX.f (-1) [1]).length - (membersAt threeX.f (-1) [1]).countP (fun x => Fl.le x (some 0)) = 3 := by
    decide +kernel
  obtain ⟨v0, v1⟩ := wet_dry
  unfold votesAt
  rw [e]
  simp only [List.map_cons, List.map_nil, votes_count, if_true, thrAt, c0, c1]
  have w0 : ¬ Event true (.scalar (some 0)) threeX.o [0] := v0
  have w1 : Event true (.scalar (some 0)) threeX.o [1] := v1
  simp [w0, w1]

/-- twenty members: the terms of two pooled forecasts do not add up -/
example : ∃ o w rel res unc r x y z b,
    construct (ensPrims caseCfg embInt) noMids ⟨.int 0, .none, .none, some true, twentyX⟩ world0 = (.ok o, w) ∧
    result .ensemble intInfo (ensPrims caseCfg embInt) noMids (.slot (.brierDecomp (overArg true 0) (belowArg true 0)))
      (unsaved o) w = .ok (some (.triple rel res unc)) ∧
    result .ensemble intInfo (ensPrims caseCfg embInt) noMids (.slot (.brier (overArg true 0) (belowArg true 0))) (unsaved o) w =
      .ok (some (.num r)) ∧
    rel.get [] = some x ∧ res.get [] = some y ∧ unc.get [] = some z ∧ r.get [] = some b ∧ b < x - y + z := by
  obtain ⟨o, w, h, hax⟩ : ∃ o w, construct (ensPrims caseCfg embInt) noMids ⟨.int 0, .none, .none, some true, twentyX⟩ world0 =
      (.ok o, w) ∧ o.ext.axis = some (-1) := ⟨_, _, rfl, rfl⟩
  obtain ⟨rel, res, unc, r, x, y, z, b, h1⟩ := C110_twenty (I := intInfo) h rfl rfl (a := 0) (fun h => by cases h)
    (t := .scalar (some 0)) (by simp [embInt]) trivial (by decide) slice_two (by rfl) true (m := 20) le_rfl
    (fun ax e => by rw [hax] at e; cases e; rfl) w w (k := []) (by decide) (fun ax e => by
      rw [hax] at e; cases e; exact twenty_votes)
  exact ⟨o, w, rel, res, unc, r, x, y, z, b, h, h1⟩

/-- three members: they do -/
example : ∃ o w rel res unc r,
    construct (ensPrims caseCfg embInt) noMids ⟨.int 0, .none, .none, some true, threeX⟩ world0 = (.ok o, w) ∧
    result .ensemble intInfo (ensPrims caseCfg embInt) noMids (.slot (.brierDecomp (overArg true 0) (belowArg true 0)))
      (unsaved o) w = .ok (some (.triple rel res unc)) ∧
    result .ensemble intInfo (ensPrims caseCfg embInt) noMids (.slot (.brier (overArg true 0) (belowArg true 0))) (unsaved o) w =
      .ok (some (.num r)) ∧
    rel.get [] = some (2 / 9) ∧ res.get [] = some (1 / 4) ∧ unc.get [] = some (1 / 4) ∧ r.get [] = some (2 / 9) := by
  obtain ⟨o, w, h, hax⟩ : ∃ o w, construct (ensPrims caseCfg embInt) noMids ⟨.int 0, .none, .none, some true, threeX⟩ world0 =
      (.ok o, w) ∧ o.ext.axis = some (-1) := ⟨_, _, rfl, rfl⟩
  obtain ⟨ax, rel, res, unc, r, h0, h1, h2, h3⟩ := C110_adds_up (I := intInfo) h rfl rfl (a := 0) (fun h => by cases h)
    (t := .scalar (some 0)) (by simp [embInt]) trivial (by decide) slice_two (by rfl) true
    (fun ax e => by rw [hax] at e; cases e; decide) w w
  obtain ⟨x, y, z, b, g1, g2, g3, g4, -, g5, g6, g7, g8⟩ := h3 [] (by decide)
  rw [hax] at h0
  cases h0
  rw [three_votes] at g5 g6 g7 g8
  have m3 : memberCount threeX.f (-1) = 3 := by decide
  rw [m3] at g5 g8
  refine ⟨o, w, rel, res, unc, r, h, h1, h2, ?_, ?_, ?_, ?_⟩
  · rw [g1, g5]; norm_num [voteRel, voteRate, hits, avg]
  · rw [g2, g6]; norm_num [voteRes, voteRate, baseRate, hits, avg]
  · rw [g3, g7]; norm_num [voteUnc, baseRate, hits]
  · rw [g4, g8]; norm_num [voteBrier, avg]

/-- the hypotheses of the rounded version -/
example : AxisOK threeX.f.shape.length (-1) ∧ threeX.o.shape = posShape threeX.f.shape (-1) ∧ 0 ∉ threeX.f.shape ∧
    memberCount threeX.f (-1) ≤ 19 ∧ SliceAxes threeX.o.shape [0] ∧ (takeAxes [0] threeX.o.shape).prod ≤ 1000000 :=
  ⟨by constructor <;> decide, by decide, by decide, by decide, slice_two, by decide⟩

end Props
