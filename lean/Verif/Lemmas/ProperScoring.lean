import Verif.Model.ProperScoring
import Verif.Lemmas.Stable
import Verif.Lemmas.Average
import Verif.Lemmas.Decomp
import Mathlib.Data.List.Sort

/-! The one pass over the sorted members adds up the distances of the observation from the intervals between members. -/

set_option linter.unusedSectionVars false

namespace Lemmas
open Np Spec Model

variable {K : Type} [Field K] [LinearOrder K] [IsStrictOrderedRing K] {α : Type}

/-- sum of `g` over all pairs -/
def dsum (g : K → K → K) (l : List K) : K := (l.map fun a => (l.map fun b => g a b).sum).sum

theorem dsum_cons (g : K → K → K) (x : K) (l : List K) :
    dsum g (x :: l) = g x x + (l.map fun b => g x b).sum + (l.map fun a => g a x).sum + dsum g l := by
  simp only [dsum, List.map_cons, List.sum_cons, List.sum_map_add]
  ring

theorem dsum_congr {g h : K → K → K} {l : List K} (e : ∀ a ∈ l, ∀ b ∈ l, g a b = h a b) : dsum g l = dsum h l := by
  unfold dsum
  congr 1
  refine List.map_congr_left fun a ha => ?_
  congr 1
  exact List.map_congr_left fun b hb => e a ha b hb

theorem dsum_sub_const (g : K → K → K) (c : K) (l : List K) :
    dsum (fun a b => g a b - c) l = dsum g l - (l.length : K) ^ 2 * c := by
  unfold dsum
  have e : ∀ (h : K → K) (d : K), (l.map fun b => h b - d).sum = (l.map h).sum - l.length * d := by
    intro h d
    rw [show (fun b => h b - d) = fun b => h b + -d by funext b; ring, List.sum_map_add]
    simp
    ring
  simp only [e]
  ring

theorem sum_zero {l : List K} {g : K → K} (h : ∀ b ∈ l, g b = 0) : (l.map g).sum = 0 := by
  rw [List.map_congr_left h]; simp

theorem dsum_min_cons {x : K} {l : List K} (h : ∀ b ∈ l, x ≤ b) (p : K) :
    dsum (fun a b => min a b - p) (x :: l) = ((l.length : K) + 1) ^ 2 * (x - p) + dsum (fun a b => min a b - x) l := by
  rw [dsum_sub_const, dsum_sub_const, dsum_cons]
  have e1 : (l.map fun b => min x b).sum = l.length * x := by
    rw [List.map_congr_left (g := fun _ => x) fun b hb => min_eq_left (h b hb)]; simp
  have e2 : (l.map fun b => min b x).sum = l.length * x := by
    rw [List.map_congr_left (g := fun _ => x) fun b hb => min_eq_right (h b hb)]; simp
  rw [e1, e2, min_self, List.length_cons]
  push_cast
  ring

/-- the rest of the pass once the observation has been passed -/
theorem psLoop_after {y n : K} (hn : n ≠ 0) (r : Nat) : ∀ (l : List K) (k prev I : K), (prev :: l).Pairwise (· ≤ ·) →
    n = k + l.length → psLoop y n false (l.map some ++ List.replicate r none) 1 (k / n) prev I =
      some (I + dsum (fun a b => min a b - prev) l / n ^ 2)
  | [], k, prev, I, _, _ => by cases r <;> simp [psLoop, dsum, List.replicate_succ]
  | x :: l, k, prev, I, hs, hk => by
    obtain ⟨h1, h2⟩ := List.pairwise_cons.1 hs
    obtain ⟨h3, -⟩ := List.pairwise_cons.1 h2
    rw [List.map_cons, List.cons_append, psLoop, if_neg (by simp), ← add_div,
      psLoop_after hn r l (k + 1) x _ h2 (by rw [hk]; push_cast [List.length_cons]; ring), dsum_min_cons h3]
    have : k / n - 1 = -((l.length : K) + 1) / n := by
      rw [eq_div_iff hn, sub_mul, div_mul_cancel₀ _ hn, hk]; push_cast [List.length_cons]; ring
    rw [this]
    congr 1
    field_simp
    ring

theorem gap_low {a b y : K} (h1 : a ≤ y) (h2 : a ≤ b) : gap a b y = max 0 (y - b) := by
  unfold gap
  rw [min_eq_left h2, max_eq_right h2]
  rcases le_total b y with h | h
  · rw [max_eq_right (a := a - y) (by linarith)]
  · rw [max_eq_left (a := (0 : K)) (b := y - b) (by linarith)]
    exact max_eq_left (max_le (by linarith) (by linarith))

theorem gap_high {a b y : K} (h1 : y ≤ a) (h2 : y ≤ b) : gap a b y = min a b - y := by
  unfold gap
  have h3 : y ≤ min a b := le_min h1 h2
  have h4 : min a b ≤ max a b := min_le_max
  rw [max_eq_left (b := y - max a b) (by linarith), max_eq_right (by linarith)]

theorem gap_comm (a b y : K) : gap a b y = gap b a y := by unfold gap; rw [min_comm, max_comm a b]

/-- the rest of the pass before the observation has been passed -/
theorem psLoop_before {y n : K} (hn : n ≠ 0) (r : Nat) : ∀ (l : List K) (k prev I : K), (prev :: l).Pairwise (· ≤ ·) →
    prev ≤ y → n = k + l.length → psLoop y n false (l.map some ++ List.replicate r none) 0 (k / n) prev I =
      some (I + (k ^ 2 * (y - prev) + 2 * k * (l.map fun b => max 0 (y - b)).sum + dsum (fun a b => gap a b y) l) / n ^ 2)
  | [], k, prev, I, _, _, hk => by
    have : n = k := by simpa using hk
    subst this
    have e : n ^ 2 * (y - prev) / n ^ 2 = y - prev := by field_simp
    cases r <;> simp [psLoop, dsum, List.replicate_succ, e]
  | x :: l, k, prev, I, hs, hp, hk => by
    obtain ⟨h1, h2⟩ := List.pairwise_cons.1 hs
    obtain ⟨h3, -⟩ := List.pairwise_cons.1 h2
    have hk' : n = k + 1 + l.length := by rw [hk]; push_cast [List.length_cons]; ring
    rw [List.map_cons, List.cons_append, psLoop]
    by_cases hx : y < x
    · rw [if_pos ⟨rfl, hx⟩, ← add_div, psLoop_after hn r l (k + 1) x _ h2 hk']
      have e1 : ((x :: l).map fun b => max 0 (y - b)).sum = 0 := sum_zero fun b hb => by
        have : x ≤ b := by
          rcases List.mem_cons.1 hb with rfl | hb
          · exact le_rfl
          · exact h3 b hb
        exact max_eq_left (by linarith)
      have e2 : dsum (fun a b => gap a b y) (x :: l) = dsum (fun a b => min a b - y) (x :: l) := by
        refine dsum_congr fun a ha b hb => gap_high ?_ ?_
        · rcases List.mem_cons.1 ha with rfl | ha
          · exact hx.le
          · exact hx.le.trans (h3 a ha)
        · rcases List.mem_cons.1 hb with rfl | hb
          · exact hx.le
          · exact hx.le.trans (h3 b hb)
      have e3 : k / n - 1 = -((l.length : K) + 1) / n := by
        rw [eq_div_iff hn, sub_mul, div_mul_cancel₀ _ hn, hk']; ring
      rw [e1, e2, dsum_min_cons h3, e3]
      congr 1
      field_simp
      ring
    · push Not at hx
      rw [if_neg (by rintro ⟨-, h⟩; linarith), ← add_div, psLoop_before hn r l (k + 1) x _ h2 hx hk', dsum_cons]
      have e1 : (l.map fun b => gap x b y).sum = (l.map fun b => max 0 (y - b)).sum := by
        rw [List.map_congr_left fun b hb => gap_low hx (h3 b hb)]
      have e2 : (l.map fun b => gap b x y).sum = (l.map fun b => max 0 (y - b)).sum := by
        rw [← e1, List.map_congr_left fun b _ => gap_comm b x y]
      have e3 : gap x x y = y - x := by rw [gap_low hx le_rfl, max_eq_right (by linarith)]
      rw [e1, e2, e3, List.map_cons, List.sum_cons, max_eq_right (a := (0 : K)) (by linarith)]
      congr 1
      field_simp
      ring

/-- the whole pass over sorted members -/
theorem psLoop_sorted {y : K} {P : List K} (hP : P ≠ []) (hs : P.Pairwise (· ≤ ·)) (r : Nat) :
    psLoop y (P.length : K) true (P.map some ++ List.replicate r none) 0 0 0 0 =
      some (avg (P.map fun a => avg (P.map fun b => gap a b y))) := by
  have hn : (P.length : K) ≠ 0 := Nat.cast_ne_zero.2 fun h => hP (List.length_eq_zero_iff.1 h)
  have e : avg (P.map fun a => avg (P.map fun b => gap a b y)) = dsum (fun a b => gap a b y) P / (P.length : K) ^ 2 := by
    unfold avg dsum
    simp only [List.length_map]
    rw [sum_map_div]
    field_simp
  rw [e]
  cases P with
  | nil => exact absurd rfl hP
  | cons x l =>
    obtain ⟨h3, -⟩ := List.pairwise_cons.1 hs
    have hk : ((x :: l).length : K) = 1 + l.length := by push_cast [List.length_cons]; ring
    rw [List.map_cons, List.cons_append, psLoop]
    by_cases hx : y < x
    · rw [if_pos ⟨rfl, hx⟩, zero_add, psLoop_after hn r l 1 x _ hs hk,
        dsum_congr (g := fun a b => gap a b y) (h := fun a b => min a b - y), dsum_min_cons h3]
      · congr 1
        rw [← hk.trans (add_comm _ _)]
        field_simp
        ring
      · intro a ha b hb
        refine gap_high ?_ ?_
        · rcases List.mem_cons.1 ha with rfl | ha
          · exact hx.le
          · exact hx.le.trans (h3 a ha)
        · rcases List.mem_cons.1 hb with rfl | hb
          · exact hx.le
          · exact hx.le.trans (h3 b hb)
    · push Not at hx
      rw [if_neg (by rintro ⟨-, h⟩; linarith), zero_add (1 / _), psLoop_before hn r l 1 x _ hs hx hk, dsum_cons]
      have e1 : (l.map fun b => gap x b y).sum = (l.map fun b => max 0 (y - b)).sum := by
        rw [List.map_congr_left fun b hb => gap_low hx (h3 b hb)]
      have e2 : (l.map fun b => gap b x y).sum = (l.map fun b => max 0 (y - b)).sum := by
        rw [← e1, List.map_congr_left fun b _ => gap_comm b x y]
      have e3 : gap x x y = y - x := by rw [gap_low hx le_rfl, max_eq_right (by linarith)]
      rw [e1, e2, e3]
      congr 1
      field_simp
      ring

/-! ### sorting -/

theorem sorted_shape {l : List (Fl K)} (h : l.Pairwise nanLe) :
    ∃ r, l = (present l).map some ++ List.replicate r none ∧ (present l).Pairwise (· ≤ ·) := by
  induction l with
  | nil => exact ⟨0, rfl, List.Pairwise.nil⟩
  | cons a l ih =>
    obtain ⟨h1, h2⟩ := List.pairwise_cons.1 h
    obtain ⟨r, e, s⟩ := ih h2
    cases a with
    | none =>
      have hl : present l = [] := by
        rw [present, List.filterMap_eq_nil_iff]
        intro b hb
        cases b with
        | none => rfl
        | some x => exact absurd (h1 _ hb) id
      refine ⟨r + 1, ?_, ?_⟩
      · rw [show present (none :: l) = present l from rfl, hl, List.replicate_succ]
        rw [hl] at e
        simpa using e
      · rw [show present (none :: l) = present l from rfl]; exact s
    | some x =>
      refine ⟨r, ?_, ?_⟩
      · rw [show present (some x :: l) = x :: present l from rfl, List.map_cons, List.cons_append, ← e]
      · rw [show present (some x :: l) = x :: present l from rfl]
        refine List.pairwise_cons.2 ⟨fun b hb => ?_, s⟩
        have hb' : some b ∈ l := by
          obtain ⟨o, ho, ho'⟩ := List.mem_filterMap.1 hb
          cases ho'
          exact ho
        exact h1 _ hb'

instance : IsTrans (Fl K) nanLe where
  trans a b c h1 h2 := by
    cases a <;> cases b <;> cases c <;> simp_all [nanLe]
    exact h1.trans h2

instance : Std.Total (nanLe (K := K)) where
  total a b := by
    cases a <;> cases b <;> simp [nanLe]
    exact le_total _ _

/-- `np.sort` puts the values in order and the missing ones behind them -/
theorem npSort_shape (ms : List (Fl K)) : ∃ (P : List K) (r : Nat), npSort ms = P.map some ++ List.replicate r none ∧
    P.Pairwise (· ≤ ·) ∧ P.Perm (present ms) := by
  obtain ⟨r, e, s⟩ := sorted_shape (List.pairwise_insertionSort nanLe ms)
  exact ⟨_, r, e, s, (List.perm_insertionSort nanLe ms).filterMap id⟩

theorem psTotal_eq (P : List K) (r : Nat) : psTotal (P.map some ++ List.replicate r none) = (P.length : K) := by
  induction P with
  | nil => cases r <;> simp [psTotal, List.replicate_succ]
  | cons x l ih =>
    rw [List.map_cons, List.cons_append, psTotal, ih]
    push_cast [List.length_cons]
    ring

theorem avg_gap_perm {P Q : List K} (h : P.Perm Q) (y : K) : avg (P.map fun a => avg (P.map fun b => gap a b y)) =
    avg (Q.map fun a => avg (Q.map fun b => gap a b y)) := by
  have : ∀ a, avg (P.map fun b => gap a b y) = avg (Q.map fun b => gap a b y) := fun a => avg_perm (h.map _)
  simp only [this]
  exact avg_perm (h.map _)

/-- the one pass, for members in any order and with missing ones -/
theorem psOnePass_eq (y : K) (ms : List (Fl K)) : psOnePass (some y) ms = if present ms = [] then none else
    some (avg ((present ms).map fun a => avg ((present ms).map fun b => gap a b y))) := by
  obtain ⟨P, r, e, s, p⟩ := npSort_shape ms
  unfold psOnePass
  simp only [e, psTotal_eq]
  by_cases h : present ms = []
  · rw [if_pos h]
    rw [h] at p
    obtain rfl := p.eq_nil
    cases r <;> simp [psLoop, List.replicate_succ]
  · rw [if_neg h, psLoop_sorted (fun hP => h (by rw [hP] at p; exact p.nil_eq.symm)) s, avg_gap_perm p]

/-! ### the formula on arrays -/

theorem nanmean_avg {l : List (Fl K)} (h : present l ≠ []) : nanmean l = some (avg (present l)) := by
  rw [nanmean_eq l h]; rfl

theorem psFormula_eq (y : K) (ms : List (Fl K)) : psFormula (some y) ms = if present ms = [] then none else
    some (avg ((present ms).map fun x => |x - y|) -
      avg ((present ms).map fun x => avg ((present ms).map fun x' => |x - x'|)) / 2) := by
  obtain ⟨P, r, e, -, p⟩ := npSort_shape ms
  have hw : (npSort ms).map (fun x => x.map fun _ => (1 : K)) = P.map (fun _ => some 1) ++ List.replicate r none := by
    rw [e, List.map_append, List.map_map, List.map_replicate]; rfl
  unfold psFormula
  simp only [hw]
  by_cases h : present ms = []
  · rw [if_pos h]
    rw [h] at p
    obtain rfl := p.eq_nil
    rw [nanmean_nil (l := List.zipWith _ _ _)]
    · rfl
    · rw [e]
      simp [Fl.mul, Fl.lift2, Fl.sub, Fl.abs]
  · rw [if_neg h]
    have hP : P ≠ [] := fun hP => h (by rw [hP] at p; exact p.nil_eq.symm)
    have hpw : present (P.map (fun _ => some (1 : K)) ++ List.replicate r none) = P.map fun _ => 1 := by
      simp [present, List.filterMap_append, List.filterMap_replicate_of_none]
    have hone : nanmean (P.map (fun _ => some (1 : K)) ++ List.replicate r none) = some 1 := by
      rw [nanmean_avg (by rw [hpw]; simpa using hP), hpw, avg_const hP]
    have hw2 : (P.map (fun _ => some (1 : K)) ++ List.replicate r none).map (fun a => Fl.div a (some 1)) =
        P.map (fun _ => some 1) ++ List.replicate r none := by
      simp [Fl.div]
    rw [hone, hw2, e]
    have hz : (P.map (fun _ => some (1 : K)) ++ List.replicate r none).zip (P.map some ++ List.replicate r none) =
        P.map (fun x => (some 1, some x)) ++ List.replicate r (none, none) := by
      rw [List.zip_append (by simp), List.zip_map', List.zip_replicate, min_self]
    have h1 : present (List.zipWith (fun a x => Fl.mul a (Fl.abs (Fl.sub x (some y))))
        (P.map (fun _ => some (1 : K)) ++ List.replicate r none) (P.map some ++ List.replicate r none)) =
        P.map fun x => |x - y| := by
      rw [← List.map_uncurry_zip_eq_zipWith, hz]
      simp [present, List.filterMap_append, List.filterMap_map, Function.comp_def, List.filterMap_replicate_of_none,
        Fl.mul, Fl.lift2, Fl.sub, Fl.abs, Function.uncurry]
    have row : ∀ p : Fl K × Fl K, (((P.map (fun x => ((some 1 : Fl K), (some x : Fl K))) ++ List.replicate r (none, none)).map
        fun q : Fl K × Fl K => Fl.mul (Fl.mul p.1 q.1) (Fl.abs (Fl.sub p.2 q.2)))).filterMap id =
          P.filterMap fun x' => Fl.mul (Fl.mul p.1 (some 1)) (Fl.abs (Fl.sub p.2 (some x'))) := by
      intro p
      rw [List.map_append, List.map_replicate, List.map_map, List.filterMap_append, List.filterMap_map]
      have : Fl.mul (Fl.mul p.1 (none : Fl K)) (Fl.abs (Fl.sub p.2 none)) = none := by
        cases p.1 <;> rfl
      simp only [this]
      rw [List.filterMap_replicate_of_none rfl, List.append_nil]
      rfl
    have h2 : present ((P.map (fun x => ((some 1 : Fl K), (some x : Fl K))) ++ List.replicate r (none, none)).flatMap
        fun p : Fl K × Fl K => (P.map (fun x => ((some 1 : Fl K), (some x : Fl K))) ++ List.replicate r (none, none)).map
          fun q : Fl K × Fl K => Fl.mul (Fl.mul p.1 q.1) (Fl.abs (Fl.sub p.2 q.2))) = P.flatMap fun x => P.map fun x' => |x - x'| := by
      rw [present, List.filterMap_flatMap]
      simp only [row]
      rw [List.flatMap_append, List.flatMap_map]
      have t1 : ∀ x, (P.filterMap fun x' => Fl.mul (Fl.mul (some (1 : K)) (some 1)) (Fl.abs (Fl.sub (some x) (some x')))) =
          P.map fun x' => |x - x'| := by
        intro x
        rw [← List.filterMap_eq_map]
        congr 1
        funext x'
        simp [Fl.mul, Fl.lift2, Fl.sub, Fl.abs]
      have t2 : ((List.replicate r ((none : Fl K), (none : Fl K))).flatMap fun p =>
          P.filterMap fun x' => Fl.mul (Fl.mul p.1 (some 1)) (Fl.abs (Fl.sub p.2 (some x')))) = [] := by
        rw [List.flatMap_eq_nil_iff]
        intro q hq
        rw [(List.mem_replicate.1 hq).2, List.filterMap_eq_nil_iff]
        intro x _
        rfl
      rw [t2, List.append_nil]
      simp only [t1]
    have hN : (P.length : K) ≠ 0 := Nat.cast_ne_zero.2 fun h => hP (List.length_eq_zero_iff.1 h)
    have h3 : avg (P.flatMap fun x => P.map fun x' => |x - x'|) = avg (P.map fun x => avg (P.map fun x' => |x - x'|)) := by
      unfold avg
      simp only [List.length_map]
      rw [sum_map_div, List.length_flatMap, List.flatMap_def, List.sum_flatten, List.map_map]
      simp only [List.length_map, List.map_const', List.sum_replicate, smul_eq_mul]
      push_cast
      field_simp
      rfl
    have h4 : (P.flatMap fun x => P.map fun x' => |x - x'|) ≠ [] := by
      obtain ⟨x, hx⟩ := List.exists_mem_of_ne_nil P hP
      exact List.ne_nil_of_mem (List.mem_flatMap.2 ⟨x, hx, List.mem_map_of_mem hx⟩)
    rw [hz, nanmean_avg (by rw [h1]; simpa using hP), h1, nanmean_avg (by rw [h2]; exact h4), h2, h3]
    simp only [Fl.add, Fl.mul, Fl.lift2]
    have e1 : avg (P.map fun x => |x - y|) = avg ((present ms).map fun x => |x - y|) := avg_perm (p.map _)
    have e2 : avg (P.map fun x => avg (P.map fun x' => |x - x'|)) =
        avg ((present ms).map fun x => avg ((present ms).map fun x' => |x - x'|)) := by
      have : ∀ x, avg (P.map fun x' => |x - x'|) = avg ((present ms).map fun x' => |x - x'|) := fun x => avg_perm (p.map _)
      simp only [this]
      exact avg_perm (p.map _)
    rw [e1, e2]
    congr 1
    ring

end Lemmas
