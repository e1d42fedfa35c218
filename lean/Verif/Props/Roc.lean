import Verif.Lemmas.Roc
import Verif.Props.EndToEndCurves
import Verif.Props.EndToEndClasses

/-!
# The area under the receiver operating characteristic: C90
-/

set_option linter.unusedSectionVars false

namespace Props
open Np NDArr Spec Model Lemmas

variable {K : Type} [Field K] [LinearOrder K] [IsStrictOrderedRing K]

/-- probabilities as scikit-learn receives them -/
def scoresOf (q : List (K × Bool)) : List (Fl K) := q.map fun a => some a.1
/-- events as scikit-learn receives them -/
def eventsOf (q : List (K × Bool)) : List (Fl K) := q.map fun a => some (if a.2 then 1 else 0)

theorem skRoc_eq {q : List (K × Bool)} (hq : q ≠ []) :
    skRoc (scoresOf q) (eventsOf q) =
      (skAuc (skCurve q).1 (skCurve q).2).map fun a => ((skCurve q).1, (skCurve q).2, a) := by
  have h1 : (scoresOf q).filterMap id = q.map Prod.fst := by
    rw [scoresOf, show (fun a : K × Bool => some a.1) = some ∘ Prod.fst from rfl, ← List.map_map, filterMap_id_map_some]
  have h2 : ((eventsOf q).filterMap id).map (fun v : K => decide (v = 1)) = q.map Prod.snd := by
    rw [eventsOf, show (fun a : K × Bool => (some (if a.2 then 1 else 0) : Fl K)) =
      some ∘ fun a : K × Bool => (if a.2 then (1 : K) else 0) from rfl, ← List.map_map, filterMap_id_map_some,
      List.map_map]
    apply List.map_congr_left
    intro a _
    cases h : a.2 <;> simp [h]
  have h3 : (q.map Prod.fst).zip (q.map Prod.snd) = q := by
    rw [List.zip_map']; simp
  unfold skRoc
  rw [if_neg (by simp [scoresOf, eventsOf]), if_neg (by simp [scoresOf, eventsOf]), if_neg (by simpa [scoresOf] using hq)]
  simp only [h1, h2, h3]

/-- the points of the curve as counts -/
def cornersOf (q : List (K × Bool)) : List (Nat × Nat) := (0, 0) :: keepCorners (cutPoints (sortDesc q) (0, 0))

theorem cornersOf_last {q : List (K × Bool)} (hq : q ≠ []) :
    (cornersOf q).getLast? = some ((ofOthers q).length, (ofEvents q).length) := by
  rw [cornersOf, List.getLast?_cons, keepCorners_last, curve_last hq]
  rfl

theorem rates_fst {q : List (K × Bool)} (hq : q ≠ []) :
    (skCurve q).1 = (cornersOf q).map fun c =>
      if (ofOthers q).length = 0 then none else some ((c.1 : K) / (ofOthers q).length) := by
  have := cornersOf_last hq
  change rates ((cornersOf q).map Prod.fst) = _
  unfold rates
  rw [List.getLast?_map, this, List.map_map]
  rfl

theorem rates_snd {q : List (K × Bool)} (hq : q ≠ []) :
    (skCurve q).2 = (cornersOf q).map fun c =>
      if (ofEvents q).length = 0 then none else some ((c.2 : K) / (ofEvents q).length) := by
  have := cornersOf_last hq
  change rates ((cornersOf q).map Prod.snd) = _
  unfold rates
  rw [List.getLast?_map, this, List.map_map]
  rfl

theorem diffs_nonneg {N : K} (hN : 0 ≤ N) (l : List (Nat × Nat)) :
    l.Pairwise (fun a b => a.1 ≤ b.1 ∧ a.2 ≤ b.2) →
    ∀ d ∈ diffs (l.map fun c => (some ((c.1 : K) / N) : Fl K)), Fl.lt d (some 0) = false := by
  induction l with
  | nil => simp [diffs]
  | cons a l ih =>
    intro h d hd
    obtain ⟨h1, h2⟩ := List.pairwise_cons.1 h
    cases l with
    | nil => simp [diffs] at hd
    | cons b l =>
      rw [List.map_cons, List.map_cons, diffs] at hd
      rcases List.mem_cons.1 hd with rfl | hd
      · have := (h1 b (by simp)).1
        have : (a.1 : K) / N ≤ b.1 / N := div_le_div_of_nonneg_right (by exact_mod_cast this) hN
        simp only [Fl.sub_some, Fl.lt, decide_eq_false_iff_not, not_lt]
        linarith
      · exact ih h2 d hd

theorem cornersOf_mono (q : List (K × Bool)) :
    (cornersOf q).Pairwise fun a b => a.1 ≤ b.1 ∧ a.2 ≤ b.2 :=
  List.Pairwise.sublist ((keepCorners_sublist _).cons_cons _) (cutPoints_mono (sortDesc q) (0, 0))

theorem cornersOf_two {q : List (K × Bool)} (hq : q ≠ []) : ∃ a l, cornersOf q = (0, 0) :: a :: l := by
  obtain ⟨a, l, h⟩ := List.exists_cons_of_ne_nil (keepCorners_ne (cutPoints_ne hq))
  exact ⟨a, l, by rw [cornersOf, h]⟩

/-- **C90**: with at least one event and one non-event the area is the probability that a random event had a higher
forecast probability than a random non-event, ties counted one half.  The points of the curve are pairs of rates of
exceeding a threshold, from (0, 0) to (1, 1) and increasing in both coordinates; and for every threshold whatever the
pair of rates lies on the broken line through the points, although points in the middle of a straight piece are left
out. -/
theorem C90_area (q : List (K × Bool)) (he : ofEvents q ≠ []) (hn : ofOthers q ≠ []) :
    ∃ pts : List (K × K), skRoc (scoresOf q) (eventsOf q) =
        .ok (pts.map fun p => some p.1, pts.map fun p => some p.2, some (discrimination q)) ∧
      pts.head? = some (0, 0) ∧ pts.getLast? = some (1, 1) ∧
      pts.Pairwise (fun a b => a.1 ≤ b.1 ∧ a.2 ≤ b.2 ∧ a ≠ b) ∧
      (∀ p ∈ pts, p = (0, 0) ∨ ∃ a ∈ q, p = (fractionGe (ofOthers q) a.1, fractionGe (ofEvents q) a.1)) ∧
      ∀ s, OnLine pts (fractionGe (ofOthers q) s, fractionGe (ofEvents q) s) := by
  have hq : q ≠ [] := by rintro rfl; exact he rfl
  have hN : (ofOthers q).length ≠ 0 := fun h => hn (List.length_eq_zero_iff.1 h)
  have hP : (ofEvents q).length ≠ 0 := fun h => he (List.length_eq_zero_iff.1 h)
  have hNK : (0 : K) < (ofOthers q).length := by exact_mod_cast Nat.pos_of_ne_zero hN
  have hPK : (0 : K) < (ofEvents q).length := by exact_mod_cast Nat.pos_of_ne_zero hP
  let sc : Nat × Nat → K × K := fun c => ((c.1 : K) / (ofOthers q).length, (c.2 : K) / (ofEvents q).length)
  have inj : ∀ a b, sc a = sc b → a = b := by
    intro a b h
    simp only [sc, Prod.mk.injEq] at h
    obtain ⟨h1, h2⟩ := h
    rw [div_left_inj' hNK.ne'] at h1
    rw [div_left_inj' hPK.ne'] at h2
    exact Prod.ext (by exact_mod_cast h1) (by exact_mod_cast h2)
  have hge : ∀ s, (fractionGe (ofOthers q) s, fractionGe (ofEvents q) s) = sc (countGe q s) := fun s => rfl
  have hpw : ((0, 0) :: cutPoints (sortDesc q) (0, 0)).Pairwise
      fun a b : Nat × Nat => sc a ≠ sc b ∧ a.1 ≤ b.1 ∧ a.2 ≤ b.2 := by
    refine List.Pairwise.and ?_ (cutPoints_mono (sortDesc q) (0, 0))
    refine (cutPoints_strict (sortDesc q) (0, 0)).imp ?_
    intro a b h e
    rw [inj a b e] at h
    omega
  refine ⟨(cornersOf q).map sc, ?_, ?_, ?_, ?_, ?_, ?_⟩
  · rw [skRoc_eq hq]
    have e1 : (skCurve q).1 = ((cornersOf q).map sc).map fun p => some p.1 := by
      rw [rates_fst hq, List.map_map]
      simp only [if_neg hN]
      rfl
    have e2 : (skCurve q).2 = ((cornersOf q).map sc).map fun p => some p.2 := by
      rw [rates_snd hq, List.map_map]
      simp only [if_neg hP]
      rfl
    have e3 : skAuc (skCurve q).1 (skCurve q).2 = .ok (some (discrimination q)) := by
      unfold skAuc
      obtain ⟨a, l, h2⟩ := cornersOf_two hq
      rw [e1, e2, List.map_map, List.map_map, if_neg (by simp), if_neg (by rw [h2]; simp)]
      have hd := diffs_nonneg hNK.le _ (cornersOf_mono q)
      rw [if_neg]
      · have ht := trapezoid_area (K := K) (ofOthers q).length (ofEvents q).length
          (keepCorners (cutPoints (sortDesc q) (0, 0))) (0, 0)
        rw [area_keepCorners, curve_area hq] at ht
        refine congrArg Except.ok (Eq.trans ht ?_)
        unfold discrimination
        rw [Nat.cast_mul, mul_comm]
        rfl
      · rw [Bool.not_eq_true, List.any_eq_false]
        exact fun d h => by rw [hd d h]; simp
    rw [e3, e1, e2]
    rfl
  · simp [cornersOf, sc]
  · rw [List.getLast?_map, cornersOf_last hq]
    simp only [Option.map_some, sc]
    rw [div_self hNK.ne', div_self hPK.ne']
  · rw [List.pairwise_map]
    refine (hpw.sublist ((keepCorners_sublist _).cons_cons _)).imp ?_
    rintro a b ⟨h0, h1, h2⟩
    exact ⟨div_le_div_of_nonneg_right (by exact_mod_cast h1) hNK.le,
      div_le_div_of_nonneg_right (by exact_mod_cast h2) hPK.le, h0⟩
  · intro p hp
    obtain ⟨c, hc, rfl⟩ := List.mem_map.1 hp
    rcases List.mem_cons.1 hc with rfl | hc
    · left; simp [sc]
    · right
      obtain ⟨a, ha, e⟩ := (mem_curve hq c).1 ((keepCorners_sublist _).subset hc)
      exact ⟨a, ha, by rw [hge, e]⟩
  · intro s
    rw [hge]
    have hmem : countGe q s ∈ (0, 0) :: cutPoints (sortDesc q) (0, 0) := by
      by_cases h : ∃ a ∈ q, s ≤ a.1
      · -- the smallest score at or above the threshold
        obtain ⟨a, ha, hs⟩ := h
        have hne : (q.filter fun a : K × Bool => decide (s ≤ a.1)) ≠ [] :=
          List.ne_nil_of_mem (List.mem_filter.2 ⟨ha, by simpa using hs⟩)
        obtain ⟨m, hm1, hm2⟩ : ∃ m ∈ q.filter fun a : K × Bool => decide (s ≤ a.1),
            ∀ b ∈ q.filter fun a : K × Bool => decide (s ≤ a.1), m.1 ≤ b.1 := by
          obtain ⟨m, hm⟩ : ∃ m, (q.filter fun a : K × Bool => decide (s ≤ a.1)).argmin Prod.fst = some m := by
            cases h : (q.filter fun a : K × Bool => decide (s ≤ a.1)).argmin Prod.fst with
            | none => exact absurd (List.argmin_eq_none.1 h) hne
            | some m => exact ⟨m, rfl⟩
          exact ⟨m, List.argmin_mem hm, fun b hb => List.le_of_mem_argmin hb hm⟩
        obtain ⟨hmq, hms⟩ := List.mem_filter.1 hm1
        simp only [decide_eq_true_eq] at hms
        refine List.mem_cons_of_mem _ ((mem_curve hq _).2 ⟨m, hmq, ?_⟩)
        have key : ∀ x b, (x, b) ∈ q → (s ≤ x ↔ m.1 ≤ x) := fun x b hx =>
          ⟨fun h => hm2 (x, b) (List.mem_filter.2 ⟨hx, by simpa using h⟩), fun h => hms.trans h⟩
        unfold countGe
        congr 2
        · exact List.filter_congr fun x hx => by
            simp only [decide_eq_decide]; exact key x false (mem_ofOthers.1 hx)
        · exact List.filter_congr fun x hx => by
            simp only [decide_eq_decide]; exact key x true (mem_ofEvents.1 hx)
      · rw [countGe_zero fun a ha => lt_of_not_ge fun h' => h ⟨a, ha, h'⟩]
        simp
    obtain ⟨a, b, ⟨x, y, hxy⟩, t, t0, t1, e⟩ := keepCorners_line (K := K) (0, 0) _ hmem (cutPoints_ne hq)
    -- scaling keeps points on the line
    let g : K × K → K × K := fun p => (p.1 / (ofOthers q).length, p.2 / (ofEvents q).length)
    have hg : (cornersOf q).map sc = ((cornersOf q).map toK).map g := by rw [List.map_map]; rfl
    have hs : sc (countGe q s) = g (toK (countGe q s)) := rfl
    refine ⟨g a, g b, ⟨x.map g, y.map g, ?_⟩, t, t0, t1, ?_⟩
    · rw [hg, cornersOf, List.map_cons, ← hxy]
      simp
    · rw [hs, e]
      simp only [g, Prod.mk.injEq]
      constructor <;> ring

/-- **C90**: without an event or without a non-event the area is missing; nothing is raised. -/
theorem C90_one_class (q : List (K × Bool)) (hq : q ≠ []) (h : ofEvents q = [] ∨ ofOthers q = []) :
    ∃ fpr tpr, skRoc (scoresOf q) (eventsOf q) = .ok (fpr, tpr, none) := by
  rw [skRoc_eq hq]
  refine ⟨(skCurve q).1, (skCurve q).2, ?_⟩
  suffices skAuc (skCurve q).1 (skCurve q).2 = .ok none by rw [this]; rfl
  obtain ⟨a, l, h2⟩ := cornersOf_two hq
  unfold skAuc
  rw [if_neg (by rw [rates_fst hq, rates_snd hq]; simp), if_neg (by rw [rates_fst hq, h2]; simp), if_neg]
  · rw [rates_fst hq, rates_snd hq, h2]
    simp only [List.map_cons]
    rw [trapezoid_none]
    rcases h with h | h
    · right; simp [h]
    · left; simp [h]
  · rw [Bool.not_eq_true, List.any_eq_false, rates_fst hq]
    by_cases h0 : (ofOthers q).length = 0
    · intro d hd
      simp only [if_pos h0] at hd
      have : ∀ (m : List (Nat × Nat)), ∀ d ∈ diffs (m.map fun _ => (none : Fl K)), d = none := by
        intro m
        induction m with
        | nil => simp [diffs]
        | cons x m ih =>
          cases m with
          | nil => simp [diffs]
          | cons y m =>
            intro d hd
            rw [List.map_cons, List.map_cons, diffs] at hd
            rcases List.mem_cons.1 hd with rfl | hd
            · rfl
            · exact ih d hd
      rw [this _ d hd]
      simp [Fl.lt]
    · simp only [if_neg h0]
      intro d hd
      rw [diffs_nonneg (Nat.cast_nonneg _) _ (cornersOf_mono q) d hd]
      simp

/-- **C90**: a missing probability is an error. -/
theorem C90_missing (f o : List (Fl K)) (h : none ∈ f) : skRoc f o = .error .value := by
  unfold skRoc
  split
  · rfl
  · rw [if_pos (.inl h)]

/-! ### what the area means -/

theorem wins_range (e n : K) : 0 ≤ wins e n ∧ wins e n ≤ 1 := by
  unfold wins
  split
  · exact ⟨zero_le_one, le_rfl⟩
  · split
    · constructor <;> linarith [one_pos (α := K)]
    · exact ⟨le_rfl, zero_le_one⟩

theorem wins_swap (e n : K) : wins n e = 1 - wins e n := by
  unfold wins
  rcases lt_trichotomy e n with h | rfl | h
  · rw [if_pos h, if_neg (not_lt_of_gt h), if_neg (ne_of_gt h)]; ring
  · rw [if_neg (lt_irrefl _), if_pos rfl]; ring
  · rw [if_neg (not_lt_of_gt h), if_neg (ne_of_gt h), if_pos h]; ring

theorem wins_one {e n : K} : wins e n = 1 ↔ n < e := by
  unfold wins
  split
  · simp_all
  · split
    · constructor
      · intro h
        have : (1 : K) / 2 < 1 := by linarith [one_pos (α := K)]
        exact absurd h this.ne
      · intro h; contradiction
    · simp_all

theorem wins_zero {e n : K} : wins e n = 0 ↔ e < n := by
  rw [wins_swap n e, sub_eq_zero, eq_comm, wins_one]

/-- a list of numbers in the unit interval: bounds of the sum and when they are reached -/
theorem sum_unit (l : List K) (h : ∀ x ∈ l, 0 ≤ x ∧ x ≤ 1) :
    0 ≤ l.sum ∧ l.sum ≤ l.length ∧ (l.sum = l.length ↔ ∀ x ∈ l, x = 1) ∧ (l.sum = 0 ↔ ∀ x ∈ l, x = 0) := by
  induction l with
  | nil => simp
  | cons a l ih =>
    obtain ⟨i1, i2, i3, i4⟩ := ih fun x hx => h x (List.mem_cons_of_mem _ hx)
    obtain ⟨a1, a2⟩ := h a (by simp)
    simp only [List.sum_cons, List.length_cons, Nat.cast_add, Nat.cast_one, List.forall_mem_cons]
    refine ⟨by linarith, by linarith, ?_, ?_⟩
    · rw [← i3]
      exact ⟨fun e => ⟨by linarith, by linarith⟩, fun e => by linarith [e.1, e.2]⟩
    · rw [← i4]
      exact ⟨fun e => ⟨by linarith, by linarith⟩, fun e => by linarith [e.1, e.2]⟩

theorem discrimination_flat (q : List (K × Bool)) :
    discrimination q = (((ofEvents q).flatMap fun e => (ofOthers q).map fun n => wins e n).sum) /
      ((ofEvents q).flatMap fun e => (ofOthers q).map fun n => wins e n).length := by
  have h1 : ∀ (E : List K) (g : K → List K), (E.flatMap g).sum = (E.map fun e => (g e).sum).sum := by
    intro E g
    induction E with
    | nil => simp
    | cons a E ih => simp [List.flatMap_cons, ih]
  have h2 : ((ofEvents q).flatMap fun e => (ofOthers q).map fun n => wins e n).length =
      (ofEvents q).length * (ofOthers q).length := by
    simp [List.length_flatMap]
  rw [h1, h2]
  rfl

/-- **C90**: the area is between 0 and 1; it is 1 exactly if every event had a higher probability than every non-event,
0 exactly if every event had a lower one, and one half if all the probabilities are equal. -/
theorem C90_range (q : List (K × Bool)) (he : ofEvents q ≠ []) (hn : ofOthers q ≠ []) {fpr tpr : List (Fl K)}
    {v : Fl K} (h : skRoc (scoresOf q) (eventsOf q) = .ok (fpr, tpr, v)) :
    ∃ a, v = some a ∧ 0 ≤ a ∧ a ≤ 1 ∧ (a = 1 ↔ ∀ x y, (x, true) ∈ q → (y, false) ∈ q → y < x) ∧
      (a = 0 ↔ ∀ x y, (x, true) ∈ q → (y, false) ∈ q → x < y) ∧
      ((∀ x y, (x, true) ∈ q → (y, false) ∈ q → x = y) → a = 1 / 2) := by
  obtain ⟨pts, h1, -⟩ := C90_area q he hn
  rw [h1] at h
  have hv : v = some (discrimination q) := by injection h with h; rw [Prod.mk.injEq, Prod.mk.injEq] at h; exact h.2.2.symm
  set W := (ofEvents q).flatMap fun e => (ofOthers q).map fun n => wins e n with hW
  have hd : discrimination q = W.sum / W.length := discrimination_flat q
  have hmem : ∀ w, w ∈ W ↔ ∃ x y, (x, true) ∈ q ∧ (y, false) ∈ q ∧ wins x y = w := by
    intro w
    simp only [hW, List.mem_flatMap, List.mem_map, mem_ofEvents, mem_ofOthers]
    constructor
    · rintro ⟨x, hx, y, hy, e⟩; exact ⟨x, y, hx, hy, e⟩
    · rintro ⟨x, y, hx, hy, e⟩; exact ⟨x, hx, y, hy, e⟩
  obtain ⟨s1, s2, s3, s4⟩ := sum_unit W fun w hw => by
    obtain ⟨x, y, -, -, rfl⟩ := (hmem w).1 hw
    exact wins_range x y
  have hL : (0 : K) < W.length := by
    obtain ⟨x, hx⟩ := List.exists_mem_of_ne_nil _ he
    obtain ⟨y, hy⟩ := List.exists_mem_of_ne_nil _ hn
    exact_mod_cast List.length_pos_of_mem ((hmem _).2 ⟨x, y, mem_ofEvents.1 hx, mem_ofOthers.1 hy, rfl⟩)
  refine ⟨_, hv, ?_, ?_, ?_, ?_, ?_⟩
  · rw [hd]; exact div_nonneg s1 hL.le
  · rw [hd, div_le_one hL]; exact s2
  · rw [hd, div_eq_one_iff_eq hL.ne', s3]
    constructor
    · exact fun h x y hx hy => wins_one.1 (h _ ((hmem _).2 ⟨x, y, hx, hy, rfl⟩))
    · intro h w hw
      obtain ⟨x, y, hx, hy, rfl⟩ := (hmem w).1 hw
      exact wins_one.2 (h x y hx hy)
  · rw [hd, div_eq_zero_iff, or_iff_left hL.ne', s4]
    constructor
    · exact fun h x y hx hy => wins_zero.1 (h _ ((hmem _).2 ⟨x, y, hx, hy, rfl⟩))
    · intro h w hw
      obtain ⟨x, y, hx, hy, rfl⟩ := (hmem w).1 hw
      exact wins_zero.2 (h x y hx hy)
  · intro h
    have : W = List.replicate W.length (1 / 2 : K) := List.eq_replicate_iff.2 ⟨rfl, fun w hw => by
      obtain ⟨x, y, hx, hy, rfl⟩ := (hmem w).1 hw
      rw [h x y hx hy, wins_self]⟩
    rw [hd, this, List.sum_replicate, List.length_replicate, nsmul_eq_mul]
    field_simp

theorem skRoc_ext {q q' : List (K × Bool)} (hq : q ≠ []) (hq' : q' ≠ [])
    (h : ∀ c, (∃ x ∈ q, c = countGe q x.1) ↔ ∃ x ∈ q', c = countGe q' x.1) :
    skRoc (scoresOf q) (eventsOf q) = skRoc (scoresOf q') (eventsOf q') := by
  have : skCurve q = skCurve q' := by
    unfold skCurve
    rw [show (q.insertionSort fun a b => b.1 ≤ a.1) = sortDesc q from rfl,
      show (q'.insertionSort fun a b => b.1 ≤ a.1) = sortDesc q' from rfl, curve_ext hq hq' h]
  rw [skRoc_eq hq, skRoc_eq hq', this]

/-- **C90**: the order of the pairs does not matter, neither for the curve nor for the area. -/
theorem C90_order {q q' : List (K × Bool)} (h : q.Perm q') :
    skRoc (scoresOf q) (eventsOf q) = skRoc (scoresOf q') (eventsOf q') := by
  rcases eq_or_ne q [] with rfl | hq
  · rw [h.nil_eq]
  have hq' : q' ≠ [] := by rintro rfl; exact hq h.eq_nil
  refine skRoc_ext hq hq' fun c => ?_
  simp only [countGe_perm h, h.mem_iff]

theorem countGe_map {g : K → K} (hg : StrictMono g) (q : List (K × Bool)) (s : K) :
    countGe (q.map fun a => (g a.1, a.2)) (g s) = countGe q s := by
  unfold countGe ofOthers ofEvents
  simp only [List.filter_map, List.map_map, List.length_map]
  simp [Function.comp_def, hg.le_iff_le]

/-- **C90**: the curve and the area depend only on the order of the probabilities: a strictly increasing recalibration
of all of them changes neither. -/
theorem C90_transform {g : K → K} (hg : StrictMono g) (q : List (K × Bool)) :
    skRoc (scoresOf (q.map fun a => (g a.1, a.2))) (eventsOf (q.map fun a => (g a.1, a.2))) =
      skRoc (scoresOf q) (eventsOf q) := by
  rcases eq_or_ne q [] with rfl | hq
  · rfl
  refine skRoc_ext (by simpa using hq) hq fun c => ?_
  constructor
  · rintro ⟨x, hx, e⟩
    obtain ⟨a, ha, rfl⟩ := List.mem_map.1 hx
    exact ⟨a, ha, by rw [e, countGe_map hg]⟩
  · rintro ⟨a, ha, e⟩
    exact ⟨_, List.mem_map_of_mem ha, by rw [e, countGe_map hg]⟩

theorem sum_swap (E N : List K) (g : K → K → K) :
    (E.map fun e => (N.map fun n => g e n).sum).sum = (N.map fun n => (E.map fun e => g e n).sum).sum := by
  induction E with
  | nil => simp
  | cons a E ih => simp [List.sum_map_add, ih]

/-- the opposite event with the opposite probability -/
def opposite (q : List (K × Bool)) : List (K × Bool) := q.map fun a => (1 - a.1, !a.2)

theorem opposite_events (q : List (K × Bool)) : ofEvents (opposite q) = (ofOthers q).map fun x => 1 - x := by
  unfold opposite ofEvents ofOthers
  simp [List.filter_map, Function.comp_def]

theorem opposite_others (q : List (K × Bool)) : ofOthers (opposite q) = (ofEvents q).map fun x => 1 - x := by
  unfold opposite ofEvents ofOthers
  simp [List.filter_map, Function.comp_def]

theorem discrimination_opposite (q : List (K × Bool)) : discrimination (opposite q) = discrimination q := by
  unfold discrimination
  rw [opposite_events, opposite_others, List.map_map, List.length_map, List.length_map, mul_comm]
  congr 1
  simp only [Function.comp_def, List.map_map]
  rw [sum_swap]
  congr 1
  refine List.map_congr_left fun e _ => ?_
  congr 1
  refine List.map_congr_left fun n _ => ?_
  unfold wins
  simp only [sub_lt_sub_iff_left, sub_right_inj]
  simp only [eq_comm]

/-- **C90**: the opposite event, forecast with the opposite probability, has the same area. -/
theorem C90_opposite (q : List (K × Bool)) {fpr tpr fpr' tpr' : List (Fl K)} {v v' : Fl K}
    (h : skRoc (scoresOf q) (eventsOf q) = .ok (fpr, tpr, v))
    (h' : skRoc (scoresOf (opposite q)) (eventsOf (opposite q)) = .ok (fpr', tpr', v')) : v' = v := by
  rcases eq_or_ne q [] with rfl | hq
  · cases h
  have hq' : opposite q ≠ [] := by simpa [opposite] using hq
  by_cases hc : ofEvents q = [] ∨ ofOthers q = []
  · obtain ⟨_, _, e⟩ := C90_one_class q hq hc
    obtain ⟨_, _, e'⟩ := C90_one_class (opposite q) hq' (by
      rw [opposite_events, opposite_others]; simpa [or_comm] using hc)
    rw [e] at h; rw [e'] at h'
    cases h; cases h'; rfl
  · push Not at hc
    obtain ⟨_, e, -⟩ := C90_area q hc.1 hc.2
    obtain ⟨_, e', -⟩ := C90_area (opposite q) (by rw [opposite_events]; simpa using hc.2)
      (by rw [opposite_others]; simpa using hc.1)
    rw [e] at h; rw [e'] at h'
    cases h; cases h'
    rw [discrimination_opposite]

/-! ### the method -/

section method
variable [FloorSemiring K] {A X : Type} {C : Cls} {I : ArgInfo A} {P : Prims X (PyVal K) A}
  {mids : FS (PyVal K) → Path → List (FS (PyVal K))} {c : Cfg K} {obs : X → NDArr (Fl K)} {emb : A → Arg K}

open Classical in
/-- the pairs of probability and event, at the positions where there is a probability -/
noncomputable def forecastPairs (isOver : Bool) (t : Thr K) (p o : NDArr (Fl K)) : List (K × Bool) :=
  (allIdx o.shape).filterMap fun i => (p.get i).map fun v => (v, decide (Event isOver t o i))

open Classical in
/-- **C90**, any probabilistic class: `roc(...)` is the curve of the pairs of probability and observed event; missing
probabilities are left out when NaN are skipped and are an error otherwise. -/
theorem C90_roc (hP : Shared c obs emb P) (hsk : c.rocCurve = skRoc) {o : Obj X} {a : A} {t : Thr K}
    (hemb : emb a = .thr t) (isOver : Bool) {w0 : World (PyVal K)} {p : NDArr (Fl K)}
    (hp : result C I P mids (.slot (.cdf (overArg isOver a) (belowArg isOver a))) (unsaved o) w0 = .ok (some (.num p)))
    (ht : ThrOK t (obs o.ext).shape) (hsh : p.shape = (obs o.ext).shape) (w : World (PyVal K)) :
    let Q := forecastPairs isOver t p (obs o.ext)
    let req := Req.slot (.roc (overArg isOver a) (belowArg isOver a))
    ((c.skipNan = true ∨ none ∉ p.data) → result C I P mids req (unsaved o) w =
      (skRoc (scoresOf Q) (eventsOf Q)).map fun r => some (.roc r.1 r.2.1 r.2.2)) ∧
    (c.skipNan = false → none ∈ p.data → result C I P mids req (unsaved o) w = .error .value) := by
  intro Q req
  obtain ⟨ob, -, b2, b3⟩ := binarize_spec hP (x := o.ext) hemb isOver ht
  have hob : IsEvents isOver t (obs o.ext) ob := ⟨b2, b3⟩
  have hr := C75_roc hP hemb isOver hp ht hsh hob w
  simp only [hsk] at hr
  have hdata : ∀ v, v ∈ p.data ↔ ∃ i, InB p.shape i ∧ p.get i = v := by
    intro v
    conv_lhs => rw [data_eq p]
    simp [mem_allIdx]
  constructor
  · intro hc
    refine hr.trans ?_
    have e : ((allIdx p.shape).map fun i => (p.get i, (some (if ob.get i then 1 else 0) : Fl K))).filter
        (fun q => !(c.skipNan && q.1.isNone)) =
        Q.map fun q => (some q.1, (some (if q.2 then 1 else 0) : Fl K)) := by
      have hk : ∀ l : List (List Nat), (∀ i ∈ l, InB p.shape i) →
          (l.map fun i => (p.get i, (some (if ob.get i then 1 else 0) : Fl K))).filter
            (fun q => !(c.skipNan && q.1.isNone)) =
          (l.filterMap fun i => (p.get i).map fun v => (v, decide (Event isOver t (obs o.ext) i))).map
            fun q => (some q.1, (some (if q.2 then 1 else 0) : Fl K)) := by
        intro l
        induction l with
        | nil => simp
        | cons i l ih =>
          intro hl
          have hi := hl i (by simp)
          have ih' := ih fun j hj => hl j (by simp [hj])
          cases hv : p.get i with
          | none =>
            have hskip : c.skipNan = true := by
              rcases hc with h | h
              · exact h
              · exact absurd ((hdata none).2 ⟨i, hi, hv⟩) h
            simp only [hskip, Bool.true_and] at ih'
            simp only [List.map_cons, hv, List.filter_cons, hskip, Bool.true_and, Option.isNone_none, Bool.not_true,
              Bool.false_eq_true, if_false, List.filterMap_cons, Option.map_none]
            exact ih'
          | some v =>
            have hbe : ob.get i = decide (Event isOver t (obs o.ext) i) := by
              rw [Bool.eq_iff_iff, b3 i (hsh ▸ hi)]; simp
            simp only [List.map_cons, hv, List.filter_cons, Option.isNone_some, Bool.and_false, Bool.not_false, if_true,
              List.filterMap_cons, Option.map_some, hbe]
            rw [ih']
      have := hk (allIdx p.shape) fun i hi => mem_allIdx.1 hi
      rw [this, hsh]
      rfl
    simp only [e]
    rw [List.map_map, List.map_map]
    rfl
  · intro hc hn
    refine hr.trans ?_
    obtain ⟨i, hi, hv⟩ := (hdata none).1 hn
    rw [C90_missing]
    · rfl
    · rw [hc]
      simp only [Bool.false_and, Bool.not_false, List.filter_true, List.map_map, List.mem_map, Function.comp_def]
      exact ⟨i, mem_allIdx.2 hi, hv⟩

/-- **C90**, any probabilistic class: if the event happened and failed to happen among the positions with a probability,
the area that `roc(...)` returns is the probability that the event had the higher forecast. -/
theorem C90_roc_area (hP : Shared c obs emb P) (hsk : c.rocCurve = skRoc) {o : Obj X} {a : A} {t : Thr K}
    (hemb : emb a = .thr t) (isOver : Bool) {w0 : World (PyVal K)} {p : NDArr (Fl K)}
    (hp : result C I P mids (.slot (.cdf (overArg isOver a) (belowArg isOver a))) (unsaved o) w0 = .ok (some (.num p)))
    (ht : ThrOK t (obs o.ext).shape) (hsh : p.shape = (obs o.ext).shape) (hc : c.skipNan = true ∨ none ∉ p.data)
    {i j : List Nat} (hi : InB (obs o.ext).shape i) (hj : InB (obs o.ext).shape j) (pi : p.get i ≠ none)
    (pj : p.get j ≠ none) (ei : Event isOver t (obs o.ext) i) (ej : ¬ Event isOver t (obs o.ext) j)
    (w : World (PyVal K)) :
    ∃ fpr tpr, result C I P mids (.slot (.roc (overArg isOver a) (belowArg isOver a))) (unsaved o) w =
      .ok (some (.roc fpr tpr (some (discrimination (forecastPairs isOver t p (obs o.ext)))))) := by
  have hmem : ∀ k, InB (obs o.ext).shape k → p.get k ≠ none → ∃ v b,
      (v, b) ∈ forecastPairs isOver t p (obs o.ext) ∧ (b = true ↔ Event isOver t (obs o.ext) k) := by
    intro k hk hv
    obtain ⟨v, hv⟩ := Option.ne_none_iff_exists'.1 hv
    classical
    refine ⟨v, decide (Event isOver t (obs o.ext) k), ?_, by simp⟩
    unfold forecastPairs
    rw [List.mem_filterMap]
    refine ⟨k, mem_allIdx.2 hk, ?_⟩
    rw [hv]
    simp only [Option.map_some]
  obtain ⟨vi, bi, m1, e1⟩ := hmem i hi pi
  obtain ⟨vj, bj, m2, e2⟩ := hmem j hj pj
  have hbi : bi = true := e1.2 ei
  have hbj : bj = false := by rw [Bool.eq_false_iff]; exact fun h => ej (e2.1 h)
  subst hbi hbj
  obtain ⟨pts, h1, -⟩ := C90_area (forecastPairs isOver t p (obs o.ext)) (List.ne_nil_of_mem (mem_ofEvents.2 m1))
    (List.ne_nil_of_mem (mem_ofOthers.2 m2))
  have := (C90_roc hP hsk hemb isOver hp ht hsh w).1 hc
  rw [h1] at this
  exact ⟨_, _, this⟩

/-- **C90**, any probabilistic class: if no observation is missing or equal to the threshold, `roc(over=t)` and
`roc(below=t)` return the same area. -/
theorem C90_over_below (hP : Shared c obs emb P) (hsk : c.rocCurve = skRoc) {o : Obj X} {a : A} (ha : Printable I a)
    {t : Thr K} (hemb : emb a = .thr t) {w0 : World (PyVal K)} {p : NDArr (Fl K)}
    (hp : result C I P mids (.slot (.cdf none (some a))) (unsaved o) w0 = .ok (some (.num p)))
    (ht : ThrOK t (obs o.ext).shape) (hsh : p.shape = (obs o.ext).shape) (hc : c.skipNan = true ∨ none ∉ p.data)
    (hne : ∀ k, InB (obs o.ext).shape k → ∃ y v, (obs o.ext).get k = some y ∧ thrAt t k = some v ∧ y ≠ v)
    {w w' : World (PyVal K)} {fpr tpr fpr' tpr' : List (Fl K)} {v v' : Fl K}
    (h : result C I P mids (.slot (.roc none (some a))) (unsaved o) w = .ok (some (.roc fpr tpr v)))
    (h' : result C I P mids (.slot (.roc (some a) none)) (unsaved o) w' = .ok (some (.roc fpr' tpr' v'))) : v' = v := by
  have hov := C75_over hP ha hp w0
  set p' := p.map fun x => Fl.sub (some 1) x with hp'
  have hc' : c.skipNan = true ∨ none ∉ p'.data := hc.imp id fun hn hm => by
    rw [hp', NDArr.map] at hm
    obtain ⟨x, hx, e⟩ := List.mem_map.1 hm
    cases x with
    | none => exact hn hx
    | some x => cases e
  have r1 := (C90_roc hP hsk hemb false hp ht hsh w).1 hc
  have r2 := (C90_roc hP hsk hemb true hov ht hsh w').1 hc'
  have hQ : forecastPairs true t p' (obs o.ext) = opposite (forecastPairs false t p (obs o.ext)) := by
    classical
    unfold forecastPairs opposite
    rw [List.map_filterMap]
    apply List.filterMap_congr
    intro k hk
    have hk := mem_allIdx.1 hk
    have hg := get_map (fun x : Fl K => Fl.sub (some 1) x) p (i := k) (by rw [hsh]; exact hk)
    rw [hp', hg]
    cases hv : p.get k with
    | none => rfl
    | some x =>
      obtain ⟨y, u, e1, e2, e3⟩ := hne k hk
      have : Event true t (obs o.ext) k ↔ ¬ Event false t (obs o.ext) k := by
        simp only [Event, if_true, Bool.false_eq_true, if_false, LtP, e1, e2, Option.some.injEq]
        constructor
        · rintro ⟨_, _, rfl, rfl, h1⟩ ⟨_, _, rfl, rfl, h2⟩
          exact lt_asymm h1 h2
        · intro h
          refine ⟨u, y, rfl, rfl, ?_⟩
          exact lt_of_le_of_ne (not_lt.1 fun h2 => h ⟨y, u, rfl, rfl, h2⟩) (Ne.symm e3)
      simp only [Fl.sub_some, Option.map_some, Option.some.injEq, Prod.mk.injEq, true_and, this]
      simp
  change result C I P mids (.slot (.roc none (some a))) (unsaved o) w = _ at r1
  change result C I P mids (.slot (.roc (some a) none)) (unsaved o) w' = _ at r2
  rw [h] at r1
  rw [h', hQ] at r2
  cases e1 : skRoc (scoresOf (forecastPairs false t p (obs o.ext))) (eventsOf (forecastPairs false t p (obs o.ext))) with
  | error e => rw [e1] at r1; cases r1
  | ok x1 =>
    cases e2 : skRoc (scoresOf (opposite (forecastPairs false t p (obs o.ext))))
        (eventsOf (opposite (forecastPairs false t p (obs o.ext)))) with
    | error e => rw [e2] at r2; cases r2
    | ok x2 =>
      rw [e1] at r1; rw [e2] at r2
      have g1 : v = x1.2.2 := by cases r1; rfl
      have g2 : v' = x2.2.2 := by cases r2; rfl
      rw [g1, g2]
      exact C90_opposite _ e1 e2

end method

/-! ### examples -/

/-- two events and two non-events; a tie between an event and a non-event -/
def rocQ : List (ℚ × Bool) := [(1 / 5, false), (1 / 2, true), (1 / 2, false), (9 / 10, true)]

example : ofEvents rocQ ≠ [] ∧ ofOthers rocQ ≠ [] ∧ discrimination rocQ = 7 / 8 := by decide +kernel

/-- the curve has a point at (1/2, 1) ... -/
example : (skRoc (scoresOf rocQ) (eventsOf rocQ)).toOption =
    some ([some 0, some 0, some (1 / 2), some 1], [some 0, some (1 / 2), some 1, some 1], some (7 / 8)) := by
  decide +kernel

/-- ... and points in the middle of a straight piece are left out: of three events above everything else only the first
and the last are kept -/
example : (skRoc (scoresOf [((9 : ℚ), true), (8, true), (7, true), (1, false)])
    (eventsOf [((9 : ℚ), true), (8, true), (7, true), (1, false)])).toOption =
    some ([some 0, some 0, some 0, some 1], [some 0, some (1 / 3), some 1, some 1], some 1) := by
  decide +kernel

example : StrictMono fun x : ℚ => 3 * x + 1 := fun a b h => by show 3 * a + 1 < 3 * b + 1; linarith

/-- one class only -/
example : (skRoc (scoresOf [((1 : ℚ), false), (2, false)]) (eventsOf [((1 : ℚ), false), (2, false)])).toOption =
    some ([some 0, some (1 / 2), some 1], [none, none, none], none) := by
  decide +kernel

/-- settings that use scikit-learn's functions -/
def cfgSk : Cfg ℚ := { cfg0 with rocCurve := skRoc }

/-- three members at three positions -/
def ensRoc : EnsX ℚ := ⟨⟨[3, 3], [some 1, some 5, some 6, some 2, some 6, some 7, some 3, some 7, some 8], rfl⟩,
  ⟨[3], [some 3, some 6, some 5], rfl⟩, some 0, member 0, none⟩

/-- the area a call returned -/
def areaOf : Except Err (Option (PyVal ℚ)) → Option (Fl ℚ)
  | .ok (some (.roc _ _ a)) => some a
  | _ => none

/-- The event "above 4" happens at the second and third position; the probabilities are 0, 1 and 1, so that both events
have a higher probability than the non-event.  "Below 4" has the same area.  At the threshold 5, which is observed, the
areas differ. -/
example : ∃ o w, construct (ensPrims cfgSk embInt) noMids ⟨.none, .none, .none, some true, ensRoc⟩ world0 = (.ok o, w) ∧
    areaOf (result .ensemble intInfo (ensPrims cfgSk embInt) noMids (.slot (.roc (some 4) none)) (unsaved o) w) =
      some (some 1) ∧
    areaOf (result .ensemble intInfo (ensPrims cfgSk embInt) noMids (.slot (.roc none (some 4))) (unsaved o) w) =
      some (some 1) ∧
    areaOf (result .ensemble intInfo (ensPrims cfgSk embInt) noMids (.slot (.roc (some 5) none)) (unsaved o) w) =
      some (some (1 / 2)) ∧
    areaOf (result .ensemble intInfo (ensPrims cfgSk embInt) noMids (.slot (.roc none (some 5))) (unsaved o) w) =
      some (some 1) :=
  ⟨_, _, rfl, by decide +kernel, by decide +kernel, by decide +kernel, by decide +kernel⟩

end Props
