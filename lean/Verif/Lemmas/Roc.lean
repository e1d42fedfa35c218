import Verif.Model.Roc
import Verif.Spec.Roc
import Mathlib.Tactic.Ring
import Mathlib.Tactic.Linarith
import Mathlib.Tactic.FieldSimp
import Mathlib.Tactic.LinearCombination
import Mathlib.Data.List.Sort

/-! # The area under the receiver operating characteristic -/

set_option linter.unusedSectionVars false

namespace Lemmas
open Np Model Spec

variable {K : Type} [Field K] [LinearOrder K] [IsStrictOrderedRing K]

/-- area below one segment -/
def seg (a b : Nat × Nat) : K := ((b.1 : K) - a.1) * (a.2 + b.2) / 2

/-- area below the broken line from `p` through the points of a list -/
def area : Nat × Nat → List (Nat × Nat) → K
  | _, [] => 0
  | p, c :: l => seg p c + area c l

theorem seg_self (a : Nat × Nat) : seg (K := K) a a = 0 := by simp [seg]

theorem midpoint_iff {p c n : Nat × Nat} (h : midpoint p c n = true) :
    (p.1 : K) + n.1 = 2 * c.1 ∧ (p.2 : K) + n.2 = 2 * c.2 := by
  simp only [midpoint, decide_eq_true_eq] at h
  exact ⟨by exact_mod_cast h.1, by exact_mod_cast h.2⟩

theorem cornersFrom_area (l : List (Nat × Nat)) : ∀ (k p c : Nat × Nat) (m : K),
    (p.1 : K) - k.1 = m * ((c.1 : K) - p.1) → (p.2 : K) - k.2 = m * ((c.2 : K) - p.2) →
    area (K := K) k (cornersFrom p (c :: l)) = seg k p + area p (c :: l) := by
  induction l with
  | nil =>
    intro k p c m h1 h2
    simp only [cornersFrom, area, seg]
    linear_combination (c.2 - p.2 : K) / 2 * h1 + (-(c.1 : K) + p.1) / 2 * h2
  | cons n l ih =>
    intro k p c m h1 h2
    rw [cornersFrom]
    by_cases hm : midpoint p c n = true
    · rw [if_pos hm]
      obtain ⟨e1, e2⟩ := midpoint_iff (K := K) hm
      rw [ih k c n (m + 1) (by linear_combination h1 - (m + 1) * e1) (by linear_combination h2 - (m + 1) * e2)]
      simp only [area, seg]
      linear_combination (c.2 - p.2 : K) / 2 * h1 + (-(c.1 : K) + p.1) / 2 * h2
    · rw [if_neg hm, area, ih c c n 0 (by simp) (by simp), seg_self]
      simp only [area, seg]
      linear_combination (c.2 - p.2 : K) / 2 * h1 + (-(c.1 : K) + p.1) / 2 * h2

/-- leaving out the points with vanishing second differences does not change the area -/
theorem area_keepCorners (p : Nat × Nat) (l : List (Nat × Nat)) : area (K := K) p (keepCorners l) = area p l := by
  match l with
  | [] => rfl
  | [c] => rfl
  | c :: d :: l =>
    rw [keepCorners, area, cornersFrom_area (K := K) l c c d 0 (by simp) (by simp), seg_self, zero_add]
    rfl

theorem cornersFrom_sublist (l : List (Nat × Nat)) : ∀ p, (cornersFrom p l).Sublist l := by
  induction l with
  | nil => intro p; simp [cornersFrom]
  | cons c l ih =>
    intro p
    match l, ih with
    | [], _ => simp [cornersFrom]
    | n :: l, ih =>
      rw [cornersFrom]
      split
      · exact (ih c).trans (List.sublist_cons_self _ _)
      · exact (ih c).cons_cons c

theorem keepCorners_sublist (l : List (Nat × Nat)) : (keepCorners l).Sublist l := by
  cases l with
  | nil => simp [keepCorners]
  | cons c l => exact (cornersFrom_sublist l c).cons_cons c

theorem cornersFrom_last (l : List (Nat × Nat)) : ∀ p, (cornersFrom p l).getLast? = l.getLast? := by
  induction l with
  | nil => intro p; rfl
  | cons c l ih =>
    intro p
    match l, ih with
    | [], _ => rfl
    | n :: l, ih =>
      rw [cornersFrom]
      split
      · rw [ih c]; rfl
      · have := ih c
        rw [List.getLast?_cons, this, List.getLast?_cons, List.getLast?_cons, List.getLast?_cons]

theorem keepCorners_last (l : List (Nat × Nat)) : (keepCorners l).getLast? = l.getLast? := by
  cases l with
  | nil => rfl
  | cons c l => rw [keepCorners, List.getLast?_cons, cornersFrom_last, List.getLast?_cons]

/-! ### points that were left out -/

/-- a point with its counts as numbers -/
def toK (p : Nat × Nat) : K × K := (p.1, p.2)

theorem OnLine.cons {pts : List (K × K)} {x : K × K} (a : K × K) (h : OnLine pts x) : OnLine (a :: pts) x := by
  obtain ⟨u, v, h1, h2⟩ := h
  exact ⟨u, v, h1.trans (List.suffix_cons a pts).isInfix, h2⟩

theorem onLine_first {a b : K × K} {pts : List (K × K)} {t : K} (h0 : 0 ≤ t) (h1 : t ≤ 1) :
    OnLine (a :: b :: pts) (a.1 + t * (b.1 - a.1), a.2 + t * (b.2 - a.2)) :=
  ⟨a, b, ⟨[], pts, rfl⟩, t, h0, h1, rfl⟩

theorem cornersFrom_line (l : List (Nat × Nat)) : ∀ (k p c : Nat × Nat) (m : K), 0 ≤ m →
    (p.1 : K) - k.1 = m * ((c.1 : K) - p.1) → (p.2 : K) - k.2 = m * ((c.2 : K) - p.2) →
    (∀ t : K, 0 ≤ t → t ≤ 1 → OnLine (toK (K := K) k :: (cornersFrom p (c :: l)).map toK)
      ((k.1 : K) + t * (c.1 - k.1), (k.2 : K) + t * (c.2 - k.2))) ∧
    ∀ x ∈ l, OnLine (toK (K := K) k :: (cornersFrom p (c :: l)).map toK) (toK x) := by
  induction l with
  | nil => exact fun k p c m _ _ _ => ⟨fun t h0 h1 => onLine_first h0 h1, by simp⟩
  | cons n l ih =>
    intro k p c m hm0 h1 h2
    have one : ∀ {pts : List (K × K)} {a b : Nat × Nat}, (∀ t : K, 0 ≤ t → t ≤ 1 → OnLine pts
        ((a.1 : K) + t * (b.1 - a.1), (a.2 : K) + t * (b.2 - a.2))) → OnLine pts (toK b) := by
      intro pts a b h
      have := h 1 zero_le_one le_rfl
      simpa [toK] using this
    rw [cornersFrom]
    by_cases hm : midpoint p c n = true
    · rw [if_pos hm]
      obtain ⟨e1, e2⟩ := midpoint_iff (K := K) hm
      obtain ⟨g1, g2⟩ := ih k c n (m + 1) (by linarith) (by linear_combination h1 - (m + 1) * e1)
        (by linear_combination h2 - (m + 1) * e2)
      refine ⟨fun t t0 t1 => ?_, fun x hx => ?_⟩
      · have hm2 : (0 : K) < m + 2 := by linarith
        have := g1 (t * ((m + 1) / (m + 2))) (mul_nonneg t0 (div_nonneg (by linarith) hm2.le))
          (mul_le_one₀ t1 (div_nonneg (by linarith) hm2.le) ((div_le_one hm2).2 (by linarith)))
        convert this using 2
        · field_simp
          linear_combination t * h1 - t * (m + 1) * e1
        · field_simp
          linear_combination t * h2 - t * (m + 1) * e2
      · rcases List.mem_cons.1 hx with rfl | hx
        · exact one g1
        · exact g2 x hx
    · rw [if_neg hm]
      obtain ⟨g1, g2⟩ := ih c c n 0 le_rfl (by simp) (by simp)
      refine ⟨fun t t0 t1 => onLine_first t0 t1, fun x hx => OnLine.cons _ ?_⟩
      rcases List.mem_cons.1 hx with rfl | hx
      · exact one g1
      · exact g2 x hx

/-- every point of the full curve lies on the broken line through the points that were kept -/
theorem keepCorners_line (p : Nat × Nat) (l : List (Nat × Nat)) {x : Nat × Nat} (hx : x ∈ p :: l) (hl : l ≠ []) :
    OnLine (toK (K := K) p :: (keepCorners l).map toK) (toK x) := by
  match l with
  | [] => exact absurd rfl hl
  | c :: l =>
    rw [keepCorners]
    rcases List.mem_cons.1 hx with rfl | hx
    · have := onLine_first (a := toK (K := K) x) (b := toK c) (pts := (cornersFrom c l).map toK) (t := 0) le_rfl
        zero_le_one
      simpa [toK] using this
    rcases List.mem_cons.1 hx with rfl | hx
    · have := onLine_first (a := toK (K := K) p) (b := toK x) (pts := (cornersFrom x l).map toK) (t := 1) zero_le_one
        le_rfl
      simpa [toK] using this
    · match l with
      | [] => simp at hx
      | d :: l =>
        obtain ⟨g1, g2⟩ := cornersFrom_line (K := K) l c c d 0 le_rfl (by simp) (by simp)
        refine OnLine.cons _ ?_
        rcases List.mem_cons.1 hx with rfl | hx
        · have := g1 1 zero_le_one le_rfl
          simpa [toK] using this
        · exact g2 x hx

/-! ### the area below the full curve -/

/-- scores in decreasing order -/
def Desc (q : List (K × Bool)) : Prop := q.Pairwise fun a b => b.1 ≤ a.1

/-- Mann and Whitney's statistic -/
def mw (q : List (K × Bool)) : K := ((ofEvents q).map fun e => ((ofOthers q).map fun n => wins e n).sum).sum

/-- pairs of a score with the non-events -/
def winsO (s : K) (q : List (K × Bool)) : K := ((ofOthers q).map fun n => wins s n).sum
/-- pairs of the events with a score -/
def winsE (q : List (K × Bool)) (s : K) : K := ((ofEvents q).map fun e => wins e s).sum

theorem ofEvents_cons (a : K × Bool) (q : List (K × Bool)) :
    ofEvents (a :: q) = if a.2 then a.1 :: ofEvents q else ofEvents q := by
  unfold ofEvents
  cases h : a.2 <;> simp [h]

theorem ofOthers_cons (a : K × Bool) (q : List (K × Bool)) :
    ofOthers (a :: q) = if a.2 then ofOthers q else a.1 :: ofOthers q := by
  unfold ofOthers
  cases h : a.2 <;> simp [h]

theorem mem_ofEvents {q : List (K × Bool)} {x : K} : x ∈ ofEvents q ↔ (x, true) ∈ q := by
  simp [ofEvents]

theorem mem_ofOthers {q : List (K × Bool)} {x : K} : x ∈ ofOthers q ↔ (x, false) ∈ q := by
  simp [ofOthers]

theorem mw_cons (a : K × Bool) (q : List (K × Bool)) :
    mw (a :: q) = mw q + if a.2 then winsO a.1 q else winsE q a.1 := by
  cases h : a.2
  · simp only [mw, ofEvents_cons, ofOthers_cons, h, Bool.false_eq_true, if_false, List.map_cons, List.sum_cons, winsE]
    rw [List.sum_map_add]
    ring
  · simp only [mw, ofEvents_cons, ofOthers_cons, h, if_true, List.map_cons, List.sum_cons, winsO]
    ring

theorem winsO_cons (s : K) (a : K × Bool) (q : List (K × Bool)) :
    winsO s (a :: q) = winsO s q + if a.2 then 0 else wins s a.1 := by
  cases h : a.2 <;> simp [winsO, ofOthers_cons, h, add_comm]

theorem winsE_cons (s : K) (a : K × Bool) (q : List (K × Bool)) :
    winsE (a :: q) s = winsE q s + if a.2 then wins a.1 s else 0 := by
  cases h : a.2 <;> simp [winsE, ofEvents_cons, h, add_comm]

theorem wins_self (s : K) : wins s s = 1 / 2 := by simp [wins]

theorem winsO_above {s : K} {q : List (K × Bool)} (h : ∀ a ∈ q, a.1 < s) : winsO s q = (ofOthers q).length := by
  unfold winsO
  rw [List.map_congr_left (g := fun _ => (1 : K))]
  · simp
  · intro n hn
    rw [wins, if_pos (h _ (mem_ofOthers.1 hn))]

theorem winsE_above {s : K} {q : List (K × Bool)} (h : ∀ a ∈ q, a.1 < s) : winsE q s = 0 := by
  unfold winsE
  rw [List.map_congr_left (g := fun _ => (0 : K))]
  · simp
  · intro e he
    have := h _ (mem_ofEvents.1 he)
    rw [wins, if_neg (not_lt_of_gt this), if_neg (ne_of_gt this)]

theorem cutPoints_area (r : List (K × Bool)) : ∀ (a : K × Bool) (i0 j0 i j : Nat), Desc (a :: r) →
    area (K := K) (i0, j0) (cutPoints (a :: r) (i0 + i, j0 + j)) =
      i * j0 + i * j / 2 + j0 * (ofOthers (a :: r)).length + j * winsO a.1 (a :: r) + i * winsE (a :: r) a.1 +
        mw (a :: r) := by
  induction r with
  | nil =>
    intro a i0 j0 i j _
    rw [cutPoints, mw_cons, winsO_cons, winsE_cons, wins_self]
    cases h : a.2 <;>
      simp [h, countOne, area, seg, mw, winsO, winsE, ofEvents, ofOthers] <;> ring
  | cons b r ih =>
    intro a i0 j0 i j hd
    obtain ⟨ha, hr⟩ := List.pairwise_cons.1 hd
    rw [cutPoints]
    have hc : countOne (i0 + i, j0 + j) a.2 = (i0 + (i + if a.2 then 0 else 1), j0 + (j + if a.2 then 1 else 0)) := by
      cases h : a.2 <;> simp [countOne, add_assoc]
    by_cases hab : a.1 = b.1
    · rw [if_pos hab, hc, ih b i0 j0 _ _ hr, mw_cons a, winsO_cons _ a, winsE_cons _ a, wins_self, ofOthers_cons a, hab]
      cases h : a.2 <;> simp <;> ring
    · rw [if_neg hab, hc, area]
      have := ih b (i0 + (i + if a.2 then 0 else 1)) (j0 + (j + if a.2 then 1 else 0)) 0 0 hr
      rw [Nat.add_zero, Nat.add_zero] at this
      rw [this]
      have hlt : ∀ x ∈ b :: r, x.1 < a.1 := by
        have hb : b.1 < a.1 := lt_of_le_of_ne (ha b (by simp)) (Ne.symm hab)
        intro x hx
        rcases List.mem_cons.1 hx with rfl | hx
        · exact hb
        · exact lt_of_le_of_lt ((List.pairwise_cons.1 hr).1 x hx) hb
      rw [mw_cons a, winsO_cons _ a, winsE_cons _ a, wins_self, winsO_above hlt, winsE_above hlt, ofOthers_cons a]
      cases h : a.2 <;> simp [seg] <;> ring

/-- counts of a whole list -/
theorem cutPoints_last (r : List (K × Bool)) : ∀ (a : K × Bool) (n : Nat × Nat),
    (cutPoints (a :: r) n).getLast? =
      some (n.1 + (ofOthers (a :: r)).length, n.2 + (ofEvents (a :: r)).length) := by
  induction r with
  | nil =>
    intro a n
    cases h : a.2 <;> simp [cutPoints, countOne, ofOthers_cons, ofEvents_cons, h] <;> simp [ofOthers, ofEvents]
  | cons b r ih =>
    intro a n
    rw [cutPoints]
    have hc : some ((countOne n a.2).1 + (ofOthers (b :: r)).length, (countOne n a.2).2 + (ofEvents (b :: r)).length) =
        some (n.1 + (ofOthers (a :: b :: r)).length, n.2 + (ofEvents (a :: b :: r)).length) := by
      rw [ofOthers_cons a, ofEvents_cons a]
      cases h : a.2 <;> simp [countOne] <;> omega
    split
    · rw [ih, hc]
    · rw [List.getLast?_cons, ih, hc]
      rfl

/-- the number of non-events and of events with a score of at least `s` -/
def countGe (q : List (K × Bool)) (s : K) : Nat × Nat :=
  (((ofOthers q).filter fun x => s ≤ x).length, ((ofEvents q).filter fun x => s ≤ x).length)

theorem countGe_cons (a : K × Bool) (q : List (K × Bool)) (s : K) (n : Nat × Nat) (h : s ≤ a.1) :
    n + countGe (a :: q) s = countOne n a.2 + countGe q s := by
  unfold countGe
  rw [ofOthers_cons, ofEvents_cons]
  cases ha : a.2 <;> simp [h, countOne, Prod.ext_iff] <;> omega

theorem countGe_zero {q : List (K × Bool)} {s : K} (h : ∀ a ∈ q, a.1 < s) : countGe q s = (0, 0) := by
  unfold countGe
  rw [List.filter_eq_nil_iff.2, List.filter_eq_nil_iff.2]
  · rfl
  · intro x hx
    simpa using h _ (mem_ofEvents.1 hx)
  · intro x hx
    simpa using h _ (mem_ofOthers.1 hx)

theorem mem_cutPoints (r : List (K × Bool)) : ∀ (a : K × Bool) (n c : Nat × Nat), Desc (a :: r) →
    (c ∈ cutPoints (a :: r) n ↔ ∃ x ∈ a :: r, c = n + countGe (a :: r) x.1) := by
  induction r with
  | nil =>
    intro a n c _
    have := countGe_cons a [] a.1 n le_rfl
    have e0 : countGe ([] : List (K × Bool)) a.1 = 0 := rfl
    simp only [cutPoints, List.mem_singleton, exists_eq_left, this, e0, add_zero]
  | cons b r ih =>
    intro a n c hd
    obtain ⟨ha, hr⟩ := List.pairwise_cons.1 hd
    have step : ∀ x ∈ b :: r, n + countGe (a :: b :: r) x.1 = countOne n a.2 + countGe (b :: r) x.1 :=
      fun x hx => countGe_cons a _ _ n (ha x hx)
    rw [cutPoints]
    by_cases hab : a.1 = b.1
    · rw [if_pos hab, ih b _ c hr]
      constructor
      · rintro ⟨x, hx, e⟩
        exact ⟨x, List.mem_cons_of_mem _ hx, by rw [step x hx]; exact e⟩
      · rintro ⟨x, hx, e⟩
        rcases List.mem_cons.1 hx with rfl | hx
        · exact ⟨b, by simp, by rw [e, hab, step b (by simp)]⟩
        · exact ⟨x, hx, by rw [e, step x hx]⟩
    · rw [if_neg hab, List.mem_cons, ih b _ c hr]
      have hlt : ∀ x ∈ b :: r, x.1 < a.1 := by
        have hb : b.1 < a.1 := lt_of_le_of_ne (ha b (by simp)) (Ne.symm hab)
        intro x hx
        rcases List.mem_cons.1 hx with rfl | hx
        · exact hb
        · exact lt_of_le_of_lt ((List.pairwise_cons.1 hr).1 x hx) hb
      have h0 : n + countGe (a :: b :: r) a.1 = countOne n a.2 := by
        rw [countGe_cons a _ _ n le_rfl, countGe_zero hlt]
        rfl
      constructor
      · rintro (e | ⟨x, hx, e⟩)
        · exact ⟨a, by simp, by rw [h0]; exact e⟩
        · exact ⟨x, List.mem_cons_of_mem _ hx, by rw [step x hx]; exact e⟩
      · rintro ⟨x, hx, e⟩
        rcases List.mem_cons.1 hx with rfl | hx
        · exact .inl (by rw [e, h0])
        · exact .inr ⟨x, hx, by rw [e, step x hx]⟩

/-- the counts grow along the curve -/
theorem cutPoints_mono (r : List (K × Bool)) : ∀ n : Nat × Nat,
    (n :: cutPoints r n).Pairwise fun a b => a.1 ≤ b.1 ∧ a.2 ≤ b.2 := by
  have hone : ∀ (n : Nat × Nat) (e : Bool), n.1 ≤ (countOne n e).1 ∧ n.2 ≤ (countOne n e).2 := by
    intro n e; cases e <;> simp [countOne]
  induction r with
  | nil => intro n; simp [cutPoints]
  | cons a r ih =>
    intro n
    match r, ih with
    | [], _ => simpa [cutPoints] using hone n a.2
    | b :: r, ih =>
      have h := ih (countOne n a.2)
      rw [cutPoints]
      have h' := List.pairwise_cons.1 h
      split
      · refine List.pairwise_cons.2 ⟨fun x hx => ?_, h'.2⟩
        have := h'.1 x hx
        have := hone n a.2
        omega
      · refine List.pairwise_cons.2 ⟨fun x hx => ?_, h⟩
        rcases List.mem_cons.1 hx with rfl | hx
        · exact hone n a.2
        · have := h'.1 x hx
          have := hone n a.2
          omega

/-! ### the trapezoidal rule -/

theorem trapezoid_area (N P : K) (l : List (Nat × Nat)) : ∀ p : Nat × Nat,
    trapezoid ((p :: l).map fun c => some ((c.1 : K) / N)) ((p :: l).map fun c => some ((c.2 : K) / P)) =
      some (area p l / (N * P)) := by
  have h2 : (2 : K) ≠ 0 := two_ne_zero
  induction l with
  | nil => intro p; simp [trapezoid, diffs, pairSums, fsum, area]
  | cons c l ih =>
    intro p
    have := ih c
    simp only [trapezoid, List.map_cons, diffs, pairSums, List.zipWith_cons_cons, fsum, List.foldr_cons] at this ⊢
    rw [this]
    simp only [Fl.sub_some, Fl.add_some, Fl.mul, Fl.lift2, Fl.div, if_neg h2, area, seg]
    congr 1
    rcases eq_or_ne N 0 with rfl | hN
    · simp
    rcases eq_or_ne P 0 with rfl | hP
    · simp
    field_simp
    ring

theorem fsum_none {l : List (Fl K)} (h : none ∈ l) : fsum l = none := by
  induction l with
  | nil => simp at h
  | cons a l ih =>
    rcases List.mem_cons.1 h with e | h'
    · rw [← e]; rfl
    · have e : fsum (a :: l) = Fl.add a (fsum l) := rfl
      rw [e, ih h']
      cases a <;> rfl

theorem trapezoid_none (x y : List (Fl K)) {a b c d : Fl K} (h : (a = none ∨ c = none)) :
    trapezoid (a :: b :: x) (c :: d :: y) = none := by
  unfold trapezoid
  apply fsum_none
  simp only [diffs, pairSums, List.zipWith_cons_cons, List.mem_cons]
  left
  rcases h with rfl | rfl
  · cases b <;> rfl
  · cases d <;> cases a <;> cases b <;> rfl

/-! ### the curve as a set of points -/

theorem cutPoints_strict (r : List (K × Bool)) : ∀ n : Nat × Nat,
    (n :: cutPoints r n).Pairwise fun a b => a.1 + a.2 < b.1 + b.2 := by
  have hone : ∀ (n : Nat × Nat) (e : Bool), n.1 + n.2 < (countOne n e).1 + (countOne n e).2 := by
    intro n e; cases e <;> simp [countOne]
  induction r with
  | nil => intro n; simp [cutPoints]
  | cons a r ih =>
    intro n
    match r, ih with
    | [], _ => simpa [cutPoints] using hone n a.2
    | b :: r, ih =>
      have h := ih (countOne n a.2)
      rw [cutPoints]
      have h' := List.pairwise_cons.1 h
      have h1 := hone n a.2
      split
      · exact List.pairwise_cons.2 ⟨fun x hx => h1.trans (h'.1 x hx), h'.2⟩
      · refine List.pairwise_cons.2 ⟨fun x hx => ?_, h⟩
        rcases List.mem_cons.1 hx with rfl | hx
        · exact h1
        · exact h1.trans (h'.1 x hx)

/-- decreasing order of the score -/
abbrev sortDesc (q : List (K × Bool)) : List (K × Bool) := q.insertionSort fun a b => b.1 ≤ a.1

theorem sortDesc_desc (q : List (K × Bool)) : Desc (sortDesc q) := by
  have : Std.Total fun a b : K × Bool => b.1 ≤ a.1 := ⟨fun a b => le_total b.1 a.1⟩
  have : IsTrans (K × Bool) fun a b => b.1 ≤ a.1 := ⟨fun a b c h1 h2 => le_trans h2 h1⟩
  exact List.pairwise_insertionSort _ q

theorem sortDesc_perm (q : List (K × Bool)) : (sortDesc q).Perm q := List.perm_insertionSort _ q

theorem countGe_perm {q q' : List (K × Bool)} (h : q.Perm q') (s : K) : countGe q s = countGe q' s := by
  unfold countGe ofOthers ofEvents
  rw [((((h.filter _).map _).filter _).length_eq), ((((h.filter _).map _).filter _).length_eq)]

theorem mem_curve {q : List (K × Bool)} (hq : q ≠ []) (c : Nat × Nat) :
    c ∈ cutPoints (sortDesc q) (0, 0) ↔ ∃ x ∈ q, c = countGe q x.1 := by
  obtain ⟨a, r, e⟩ : ∃ a r, sortDesc q = a :: r := by
    cases h : sortDesc q with
    | nil => exact absurd (List.Perm.nil_eq (h ▸ sortDesc_perm q)).symm hq
    | cons a r => exact ⟨a, r, rfl⟩
  have h := mem_cutPoints r a (0, 0) c (e ▸ sortDesc_desc q)
  rw [← e] at h
  rw [h]
  have h0 : ∀ n : Nat × Nat, (0, 0) + n = n := fun n => by rw [show ((0, 0) : Nat × Nat) = 0 from rfl, zero_add]
  constructor
  · rintro ⟨x, hx, e'⟩
    exact ⟨x, (sortDesc_perm q).mem_iff.1 hx, by rw [e', h0, countGe_perm (sortDesc_perm q)]⟩
  · rintro ⟨x, hx, e'⟩
    exact ⟨x, (sortDesc_perm q).mem_iff.2 hx, by rw [e', h0, countGe_perm (sortDesc_perm q)]⟩

/-- two strictly increasing lists with the same members are the same -/
theorem strict_ext : ∀ (l l' : List (Nat × Nat)), (l.Pairwise fun a b => a.1 + a.2 < b.1 + b.2) →
    (l'.Pairwise fun a b => a.1 + a.2 < b.1 + b.2) → (∀ c, c ∈ l ↔ c ∈ l') → l = l' := by
  intro l
  induction l with
  | nil =>
    intro l' _ _ h
    cases l' with
    | nil => rfl
    | cons b r => exact absurd ((h b).2 (by simp)) (by simp)
  | cons a l ih =>
    intro l' h1 h2 h
    cases l' with
    | nil => exact absurd ((h a).1 (by simp)) (by simp)
    | cons b r =>
      obtain ⟨p1, p2⟩ := List.pairwise_cons.1 h1
      obtain ⟨p3, p4⟩ := List.pairwise_cons.1 h2
      have e : a = b := by
        rcases List.mem_cons.1 ((h a).1 (by simp)) with e | e
        · exact e
        rcases List.mem_cons.1 ((h b).2 (by simp)) with e' | e'
        · exact e'.symm
        have := p3 a e
        have := p1 b e'
        omega
      subst e
      rw [ih r p2 p4 fun c => ?_]
      have := h c
      constructor
      · intro hc
        rcases List.mem_cons.1 (this.1 (List.mem_cons_of_mem _ hc)) with rfl | hc'
        · exact absurd (p1 c hc) (lt_irrefl _)
        · exact hc'
      · intro hc
        rcases List.mem_cons.1 (this.2 (List.mem_cons_of_mem _ hc)) with rfl | hc'
        · exact absurd (p3 c hc) (lt_irrefl _)
        · exact hc'

/-- the curve depends only on the set of its points -/
theorem curve_ext {q : List (K × Bool)} {L : Type} [Field L] [LinearOrder L] [IsStrictOrderedRing L]
    {q' : List (L × Bool)} (hq : q ≠ []) (hq' : q' ≠ [])
    (h : ∀ c, (∃ x ∈ q, c = countGe q x.1) ↔ ∃ x ∈ q', c = countGe q' x.1) :
    cutPoints (sortDesc q) (0, 0) = cutPoints (sortDesc q') (0, 0) :=
  strict_ext _ _ (List.pairwise_cons.1 (cutPoints_strict _ _)).2 (List.pairwise_cons.1 (cutPoints_strict _ _)).2
    fun c => by rw [mem_curve hq, mem_curve hq', h c]

theorem cutPoints_ne {q : List (K × Bool)} (hq : q ≠ []) : cutPoints (sortDesc q) (0, 0) ≠ [] := by
  intro h
  obtain ⟨a, r, rfl⟩ := List.exists_cons_of_ne_nil hq
  have := (mem_curve hq (countGe (a :: r) a.1)).2 ⟨a, by simp, rfl⟩
  rw [h] at this
  simp at this

theorem keepCorners_ne {l : List (Nat × Nat)} (h : l ≠ []) : keepCorners l ≠ [] := by
  cases l with
  | nil => exact absurd rfl h
  | cons a l => simp [keepCorners]

theorem curve_last {q : List (K × Bool)} (hq : q ≠ []) :
    (cutPoints (sortDesc q) (0, 0)).getLast? = some ((ofOthers q).length, (ofEvents q).length) := by
  obtain ⟨a, r, e⟩ : ∃ a r, sortDesc q = a :: r := by
    cases h : sortDesc q with
    | nil => exact absurd (List.Perm.nil_eq (h ▸ sortDesc_perm q)).symm hq
    | cons a r => exact ⟨a, r, rfl⟩
  have h := cutPoints_last r a (0, 0)
  rw [← e] at h
  rw [h]
  simp only [zero_add]
  unfold ofOthers ofEvents
  rw [(((sortDesc_perm q).filter _).map _).length_eq, (((sortDesc_perm q).filter _).map _).length_eq]

theorem sum_map_perm {l l' : List K} (h : l.Perm l') (g : K → K) : (l.map g).sum = (l'.map g).sum :=
  (h.map g).sum_eq

theorem mw_perm {q q' : List (K × Bool)} (h : q.Perm q') : mw q = mw q' := by
  have h1 : (ofEvents q).Perm (ofEvents q') := (h.filter _).map _
  have h2 : (ofOthers q).Perm (ofOthers q') := (h.filter _).map _
  unfold mw
  rw [sum_map_perm h1]
  congr 1
  exact List.map_congr_left fun e _ => sum_map_perm h2 _

theorem curve_area {q : List (K × Bool)} (hq : q ≠ []) :
    area (K := K) (0, 0) (cutPoints (sortDesc q) (0, 0)) = mw q := by
  obtain ⟨a, r, e⟩ : ∃ a r, sortDesc q = a :: r := by
    cases h : sortDesc q with
    | nil => exact absurd (List.Perm.nil_eq (h ▸ sortDesc_perm q)).symm hq
    | cons a r => exact ⟨a, r, rfl⟩
  have h := cutPoints_area r a 0 0 0 0 (e ▸ sortDesc_desc q)
  rw [← e] at h
  simp only [Nat.cast_zero, zero_mul, zero_div, add_zero, zero_add] at h
  rw [h, mw_perm (sortDesc_perm q)]

end Lemmas
