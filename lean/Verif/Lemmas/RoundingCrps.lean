import Verif.Model.RoundingCrps
import Verif.Lemmas.RoundingError
import Verif.Lemmas.ProperScoring
import Verif.Spec.EndToEnd
import Verif.Spec.RoundingCrps

/-! Rounding errors in the score of properscoring. -/

set_option linter.unusedSectionVars false

namespace Lemmas
open Np Spec Model

variable {K : Type} [Field K] [LinearOrder K] [IsStrictOrderedRing K] {R : Rounding K} {u : K}

theorem Close.sq (hu : 0 ≤ u) {j : Nat} {a e x : K} (h : Close u j a e x) : Close u (2 * j) (a * a) (e * e) (x * x) := by
  have := h.mul hu h
  rwa [← two_mul] at this

/-- a sum of positive contributions -/
theorem psAddR_close (hR : Accurate R u) {j T s : Nat} {I I' a b p p' w : K} (hT : 2 * j + 3 ≤ T)
    (hI : Close u (T + s) I I I') (hp : Close u j w p p') (hw : |b - a| * (w * w) = (b - a) * (p * p)) :
    Close u (T + s + 1) (I + (b - a) * p ^ 2) (I + (b - a) * p ^ 2) (psAddR R I' a b p') := by
  have h1 := (Close.exact hR.1 0 (b - a)).rnd hR
  have h2 := (hp.sq hR.1).rnd hR
  have h3 := (h1.mul hR.1 h2).rnd hR
  rw [hw] at h3
  have h4 := (hI.add (h3.mono hR.1 (k := T + s) (by omega))).rnd hR
  rw [pow_two]
  exact h4

/-- the share of the members read so far, from above -/
theorem below_close {n k : Nat} (hu : 0 ≤ u) (hk : k < n) {x : K} (h : Close u (k + 1) ((k : K) / n) (k / n) x) :
    Close u (n * n) (1 - (k : K) / n) ((k : K) / n - 1) (x - 1) := by
  have hn : (0 : K) < n := by exact_mod_cast Nat.zero_lt_of_lt hk
  have hk1 : (k : K) + 1 ≤ n := by exact_mod_cast hk
  have h1 : (k : K) / n ≤ 1 - 1 / n := by
    rw [div_le_iff₀ hn, sub_mul, one_mul, div_mul_cancel₀ _ hn.ne']; linarith
  have h0 : (0 : K) ≤ 1 / n := by positivity
  refine ⟨by rw [abs_sub_comm, abs_of_nonneg (by linarith)], ?_⟩
  rw [sub_sub_sub_cancel_right]
  refine h.2.trans ?_
  have g0 : (0 : K) ≤ (1 + u) ^ (k + 1) - 1 := by linarith [one_le hu (k + 1)]
  have g1 : (1 + u) ^ (k + 1) ≤ (1 + u) ^ n := pow_le_pow_right₀ (by linarith) hk
  have g2 := one_add_mul_le_pow (a := (1 + u) ^ n - 1) (by linarith [one_le hu n]) n
  rw [add_sub_cancel, ← pow_mul] at g2
  have g3 : (k : K) / n ≤ n * (1 - (k : K) / n) := by
    have e : (1 : K) ≤ n * (1 - (k : K) / n) := by
      rw [mul_sub, mul_one, mul_div_cancel₀ _ hn.ne']; linarith
    linarith
  have g4 : 0 ≤ 1 - (k : K) / n := by linarith
  calc ((1 + u) ^ (k + 1) - 1) * ((k : K) / n) ≤ ((1 + u) ^ n - 1) * (n * (1 - (k : K) / n)) :=
        mul_le_mul (by linarith) g3 (by positivity) (by linarith)
    _ = (n * ((1 + u) ^ n - 1)) * (1 - (k : K) / n) := by ring
    _ ≤ ((1 + u) ^ (n * n) - 1) * (1 - (k : K) / n) := mul_le_mul_of_nonneg_right (by linarith) g4

theorem share_close (hR : Accurate R u) {n k : Nat} {x : K} (h : Close u (k + 1) ((k : K) / n) (k / n) x) :
    Close u (k + 1 + 1) (((k + 1 : Nat) : K) / n) (((k + 1 : Nat) : K) / n) (R.rnd (x + R.rnd (1 / n))) := by
  have h1 := (Close.exact hR.1 0 (1 / (n : K))).rnd hR
  rw [abs_of_nonneg (by positivity)] at h1
  have h2 := (h.add (h1.mono hR.1 (k := k + 1) (by omega))).rnd hR
  rw [← add_div] at h2
  push_cast
  exact h2

/-- the loop once the observation has been passed -/
theorem psLoopR_after (hR : Accurate R u) {y : K} {n : Nat} (r : Nat) : ∀ (l : List K) (k s : Nat) (x prev I I' : K),
    n = k + l.length → (prev :: l).Pairwise (· ≤ ·) → Close u (k + 1) ((k : K) / n) (k / n) x →
    Close u (2 * (n * n) + 5 + s) I I I' →
    ∃ v v', psLoop y (n : K) false (l.map some ++ List.replicate r none) 1 (k / n) prev I = some v ∧
      psLoopR R y (n : K) false (l.map some ++ List.replicate r none) 1 x prev I' = some v' ∧
      Close u (2 * (n * n) + 5 + s + l.length) v v v'
  | [], k, s, x, prev, I, I', _, _, _, h => by
    refine ⟨I, I', ?_, ?_, h⟩ <;> cases r <;> simp [psLoop, psLoopR, List.replicate_succ]
  | a :: l, k, s, x, prev, I, I', hn, hs, hx, h => by
    obtain ⟨h1, h2⟩ := List.pairwise_cons.1 hs
    have hpa := h1 a (by simp)
    have hkn : k < n := by rw [hn, List.length_cons]; omega
    have hb := (below_close hR.1 hkn hx).rnd hR
    have hadd := psAddR_close hR (T := 2 * (n * n) + 5) (a := prev) (b := a) (by omega) h hb
      (by rw [abs_of_nonneg (by linarith)]; ring)
    obtain ⟨v, v', e1, e2, e3⟩ := psLoopR_after hR r l (k + 1) (s + 1) _ a _ _ (by rw [hn, List.length_cons]; omega) h2
      (share_close hR hx) hadd
    refine ⟨v, v', ?_, ?_, ?_⟩
    · rw [List.map_cons, List.cons_append, psLoop, if_neg (by simp), ← add_div]
      exact_mod_cast e1
    · rw [List.map_cons, List.cons_append, psLoopR]
      rw [if_neg (by simp)]
      exact e2
    · convert e3 using 1
      simp only [List.length_cons]; omega

/-- the loop before the observation has been passed -/
theorem psLoopR_before (hR : Accurate R u) {y : K} {n : Nat} (r : Nat) : ∀ (l : List K) (first : Bool) (k s : Nat)
    (x prev I I' : K), n = k + l.length → (first = true → k = 0 ∧ l ≠ []) → l.Pairwise (· ≤ ·) →
    (first = false → prev ≤ y ∧ ∀ a ∈ l, prev ≤ a) → Close u (k + 1) ((k : K) / n) (k / n) x →
    Close u (2 * (n * n) + 5 + s) I I I' →
    ∃ v v', psLoop y (n : K) first (l.map some ++ List.replicate r none) 0 (k / n) prev I = some v ∧
      psLoopR R y (n : K) first (l.map some ++ List.replicate r none) 0 x prev I' = some v' ∧
      Close u (2 * (n * n) + 5 + s + l.length + 1) v v v'
  | [], first, k, s, x, prev, I, I', _, hf, _, hp, _, h => by
    cases first with
    | true => exact absurd rfl (hf rfl).2
    | false =>
      have h1 := (Close.exact hR.1 0 (y - prev)).rnd hR
      rw [abs_of_nonneg (by linarith [(hp rfl).1])] at h1
      have h2 := (h.add (h1.mono hR.1 (by omega))).rnd hR
      refine ⟨I + (y - prev), R.rnd (I' + R.rnd (y - prev)), ?_, ?_, h2⟩ <;>
        cases r <;> simp [psLoop, psLoopR, List.replicate_succ]
  | a :: l, first, k, s, x, prev, I, I', hn, hf, hs, hp, hx, h => by
    obtain ⟨h1, h2⟩ := List.pairwise_cons.1 hs
    have hkn : k < n := by rw [hn, List.length_cons]; omega
    have hnn : n ≤ n * n := Nat.le_mul_self n
    have hn' : n = k + 1 + l.length := by rw [hn, List.length_cons]; omega
    have sgn : ∀ {b : K}, prev ≤ b ∨ first = true → |b - prev| * ((k : K) / n * (k / n)) = (b - prev) * ((k : K) / n * (k / n)) := by
      rintro b (hb | hb)
      · rw [abs_of_nonneg (by linarith)]
      · rw [(hf hb).1]; simp
    by_cases hy : y < a
    · have hb := (below_close hR.1 hkn hx).rnd hR
      have c1 := psAddR_close hR (T := 2 * (n * n) + 5) (a := prev) (b := y) (by omega) h hx (sgn (by
        cases first with
        | true => exact .inr rfl
        | false => exact .inl (hp rfl).1))
      have c2 := psAddR_close hR (T := 2 * (n * n) + 5) (s := s + 1) (a := y) (b := a) (by omega) c1 hb
        (by rw [abs_of_nonneg (by linarith)]; ring)
      obtain ⟨v, v', e1, e2, e3⟩ := psLoopR_after hR r l (k + 1) (s + 2) _ a _ _ hn' hs (share_close hR hx) c2
      refine ⟨v, v', ?_, ?_, ?_⟩
      · rw [List.map_cons, List.cons_append, psLoop, if_pos ⟨rfl, hy⟩, ← add_div]
        exact_mod_cast e1
      · rw [List.map_cons, List.cons_append, psLoopR]
        rw [if_pos ⟨rfl, hy⟩]
        exact e2
      · convert e3 using 1
        simp only [List.length_cons]; omega
    · have hz : Close u (k + 1 + 1) ((k : K) / n) (k / n - 0) (R.rnd (x - 0)) := by
        rw [sub_zero, sub_zero]; exact hx.rnd hR
      have c1 := psAddR_close hR (T := 2 * (n * n) + 5) (a := prev) (b := a) (by omega) h hz (by
        rw [sub_zero]
        exact sgn (by
          cases first with
          | true => exact .inr rfl
          | false => exact .inl ((hp rfl).2 a (by simp))))
      push Not at hy
      obtain ⟨v, v', e1, e2, e3⟩ := psLoopR_before hR r l false (k + 1) (s + 1) _ a _ _ hn' (by simp) h2
        (fun _ => ⟨hy, h1⟩) (share_close hR hx) c1
      refine ⟨v, v', ?_, ?_, ?_⟩
      · rw [List.map_cons, List.cons_append, psLoop, if_neg (by rintro ⟨-, h⟩; linarith), ← add_div]
        exact_mod_cast e1
      · rw [List.map_cons, List.cons_append, psLoopR]
        rw [if_neg (by rintro ⟨-, h⟩; linarith)]
        exact e2
      · convert e3 using 1
        simp only [List.length_cons]; omega

theorem psTotalR_eq (R : Rounding K) : ∀ (P : List K) (r t : Nat), t + P.length ≤ R.size →
    psTotalR R (t : K) (P.map some ++ List.replicate r none) = ((t + P.length : Nat) : K)
  | [], r, t, _ => by cases r <;> simp [psTotalR, List.replicate_succ]
  | a :: P, r, t, h => by
    rw [List.map_cons, List.cons_append, psTotalR]
    have := rnd_nat R (n := t + 1) (by simp only [List.length_cons] at h; omega)
    push_cast at this
    rw [this]
    have := psTotalR_eq R P r (t + 1) (by simp only [List.length_cons] at h; omega)
    push_cast at this
    rw [this]
    push_cast [List.length_cons]
    ring

/-- the one pass, rounded and exact -/
theorem psOnePassR_close (hR : Accurate R u) (y : K) {ms : List (Fl K)} (hne : present ms ≠ [])
    (hs : (present ms).length ≤ R.size) : ∃ v v', psOnePass (some y) ms = some v ∧ psOnePassR R (some y) ms = some v' ∧
      Close u (2 * ((present ms).length * (present ms).length) + (present ms).length + 6) v v v' := by
  obtain ⟨P, r, e, s, p⟩ := npSort_shape ms
  have hl := p.length_eq
  have hP : P ≠ [] := fun hP => hne (by rw [hP] at p; exact p.nil_eq.symm)
  rw [← hl] at hs ⊢
  obtain ⟨v, v', e1, e2, e3⟩ := psLoopR_before hR (y := y) (n := P.length) r P true 0 0 0 0 0 0 (by simp) (fun _ => ⟨rfl, hP⟩) s
    (by simp) (by simpa using Close.exact hR.1 1 (0 : K)) (by simpa using Close.exact hR.1 _ (0 : K))
  refine ⟨v, v', ?_, ?_, ?_⟩
  · unfold psOnePass
    simp only [e, psTotal_eq]
    simpa using e1
  · unfold psOnePassR
    simp only [e]
    have := psTotalR_eq R P r 0 (by omega)
    simp only [Nat.cast_zero, zero_add] at this
    rw [this]
    exact e2
  · convert e3 using 1
    omega

/-! ### the formula on arrays -/

theorem zipWith_self_map {α β γ : Type} (g : β → α → γ) (h : α → β) (f : List α) :
    List.zipWith g (f.map h) f = f.map fun x => g (h x) x := by
  induction f with
  | nil => rfl
  | cons a f ih => simp [ih]

theorem nanmeanR_ones (S : SumOrder) {f : List (Fl K)} (hne : present f ≠ []) (hs : (present f).length ≤ R.size) :
    nanmeanR R S (f.map fun x => x.map fun _ => (1 : K)) = some 1 := by
  have hc : (f.map fun x => x.map fun _ => (1 : K)).countP Option.isSome = (present f).length := by
    rw [List.countP_map, present]
    clear hne hs
    induction f with
    | nil => rfl
    | cons a f ih =>
      rw [List.countP_cons, ih]
      cases a <;> simp
  have hn : (present f).length ≠ 0 := by simpa using hne
  have hf : f ≠ [] := by rintro rfl; exact hne rfl
  have hl : f.length ≠ 0 := by simpa using hf
  unfold nanmeanR
  simp only [hc, if_neg hn]
  have hv : ∀ i ∈ (S.tree f.length).leaves, ∃ v, ((f.map fun x => x.map fun _ => (1 : K)).map fun x => some (x.getD 0)).getD i none =
      some v ∧ (((if (f.getD i none).isSome then 1 else 0) : Nat) : K) ≤ v ∧
        v ≤ (((if (f.getD i none).isSome then 1 else 0) : Nat) : K) := by
    intro i hi
    have hi' := (mem_leaves S hl).1 hi
    rw [getD_lt (by simpa using hi'), getD_lt hi', List.getElem_map, List.getElem_map]
    cases f[i] <;> simp
  have hsum : ((S.tree f.length).leaves.map fun i => if (f.getD i none).isSome then 1 else 0).sum = (present f).length := by
    rw [leaves_sum S hl, countP_range, ← hc, List.countP_map]
    congr 1
    funext x
    cases x <;> rfl
  obtain ⟨s, s1, s2, s3⟩ := sumR_bounds R _ _ _ _ hv (by rw [hsum]; exact hs)
  rw [hsum] at s2 s3
  obtain rfl := le_antisymm s3 s2
  rw [List.length_map, s1, Option.map_some, div_self (Nat.cast_ne_zero.2 hn), rnd_one R (by omega)]

theorem isAvg_present {l : List (Fl K)} (h : present l ≠ []) : IsAvg true l (some (avg (present l))) := by
  unfold IsAvg
  rw [if_neg (by simp [h])]

theorem present_map_map {f : List (Fl K)} (g : K → K) : present (f.map fun x => x.map g) = (present f).map g := by
  rw [present, present, List.filterMap_map, List.map_filterMap]
  rfl

theorem present_pairs {f : List (Fl K)} (g : K → K → K) :
    present ((f.flatMap fun x => f.map fun x' => (x, x')).map (both g)) = (present f).flatMap fun x => (present f).map (g x) := by
  have inner : ∀ (x : K) (l : List (Fl K)), ((l.map fun x' => ((some x : Fl K), x')).filterMap (both g)) = (present l).map (g x) := by
    intro x l
    rw [List.filterMap_map, present, List.map_filterMap]
    congr 1
    funext b
    cases b <;> rfl
  have inner0 : ∀ l : List (Fl K), ((l.map fun x' => ((none : Fl K), x')).filterMap (both g)) = [] := by
    intro l
    rw [List.filterMap_eq_nil_iff]
    intro p hp
    obtain ⟨b, -, rfl⟩ := List.mem_map.1 hp
    rfl
  have key : ∀ (l f : List (Fl K)), (l.flatMap fun x => ((f.map fun x' => (x, x')).filterMap (both g))) =
      (present l).flatMap fun x => (present f).map (g x) := by
    intro l f
    induction l with
    | nil => rfl
    | cons a l ih =>
      rw [List.flatMap_cons, ih]
      cases a with
      | none => rw [inner0]; rfl
      | some x => rw [inner]; rfl
  rw [present, List.filterMap_map, List.filterMap_flatMap]
  exact key f f

theorem avg_flatMap {P : List K} (hP : P ≠ []) (g : K → K → K) :
    avg (P.flatMap fun x => P.map (g x)) = avg (P.map fun x => avg (P.map (g x))) := by
  have hN : (P.length : K) ≠ 0 := Nat.cast_ne_zero.2 fun h => hP (List.length_eq_zero_iff.1 h)
  unfold avg
  simp only [List.length_map]
  rw [sum_map_div, List.length_flatMap, List.flatMap_def, List.sum_flatten, List.map_map]
  simp only [List.length_map, List.map_const', List.sum_replicate, smul_eq_mul]
  push_cast
  field_simp
  rfl

/-- the formula, rounded -/
theorem psFormulaR_close (hR : Accurate R u) (S : SumOrder) (y : K) {ms : List (Fl K)} (hne : present ms ≠ [])
    (hs : (present ms).length ≤ R.size) : ∃ v', psFormulaR R S (some y) ms = some v' ∧
      Close u (formulaDepth S ms.length + 5)
        (avg ((present ms).map fun x => |x - y|) + avg ((present ms).map fun x => avg ((present ms).map fun x' => |x - x'|)) / 2)
        (avg ((present ms).map fun x => |x - y|) - avg ((present ms).map fun x => avg ((present ms).map fun x' => |x - x'|)) / 2)
        v' := by
  have hu := hR.1
  have hperm : (npSort ms).Perm ms := List.perm_insertionSort nanLe ms
  have hpp : (present (npSort ms)).Perm (present ms) := hperm.filterMap id
  have hlen : (npSort ms).length = ms.length := hperm.length_eq
  generalize hf : npSort ms = f at *
  have hnf : present f ≠ [] := fun h => hne (by rw [h] at hpp; exact hpp.nil_eq.symm)
  have hsf : (present f).length ≤ R.size := by rw [hpp.length_eq]; exact hs
  have h1 : R.rnd 1 = 1 := rnd_one R (lt_of_lt_of_le (List.length_pos_iff.2 hne) hs)
  have eA : avg ((present f).map fun x => |x - y|) = avg ((present ms).map fun x => |x - y|) := avg_perm (hpp.map _)
  have eB : avg ((present f).map fun x => avg ((present f).map fun x' => |x - x'|)) =
      avg ((present ms).map fun x => avg ((present ms).map fun x' => |x - x'|)) := by
    have : ∀ x, avg ((present f).map fun x' => |x - x'|) = avg ((present ms).map fun x' => |x - x'|) :=
      fun x => avg_perm (hpp.map _)
    simp only [this]
    exact avg_perm (hpp.map _)
  rw [← eA, ← eB]
  -- the distances from the observation
  have nA : ∀ x : Fl K, Near u 2 (x.map fun x => |x - y|) (x.map fun x => |x - y|)
      (rop R (· * ·) (x.map fun _ => (1 : K)) (Fl.abs (rop R (· - ·) x (some y)))) := by
    intro x
    cases x with
    | none => exact .inl ⟨rfl, rfl, rfl⟩
    | some x =>
      have h := (((Close.exact hu 0 (x - y)).rnd hR).abs).rnd hR
      refine .inr ⟨_, _, R.rnd (1 * |R.rnd (x - y)|), rfl, rfl, rfl, ?_⟩
      rw [one_mul]
      exact h
  have nB : ∀ p : Fl K × Fl K, Near u 2 (both (fun x x' => |x - x'|) p) (both (fun x x' => |x - x'|) p)
      (rop R (· * ·) (rop R (· * ·) (p.1.map fun _ => (1 : K)) (p.2.map fun _ => 1)) (Fl.abs (rop R (· - ·) p.1 p.2))) := by
    rintro ⟨x, x'⟩
    cases x with
    | none => exact .inl ⟨rfl, rfl, rfl⟩
    | some x =>
      cases x' with
      | none => exact .inl ⟨rfl, rfl, rfl⟩
      | some x' =>
        have h := (((Close.exact hu 0 (x - x')).rnd hR).abs).rnd hR
        refine .inr ⟨_, _, R.rnd (R.rnd (1 * 1) * |R.rnd (x - x')|), rfl, rfl, rfl, ?_⟩
        rw [one_mul, h1, one_mul]
        exact h
  have iA : IsAvg true (f.map fun x => x.map fun x => |x - y|) (some (avg ((present f).map fun x => |x - y|))) := by
    have := isAvg_present (l := f.map fun x => x.map fun x => |x - y|) (by rw [present_map_map]; simpa using hnf)
    rwa [present_map_map] at this
  have hpn : ((present f).flatMap fun x => (present f).map fun x' => |x - x'|) ≠ [] := by
    obtain ⟨x, hx⟩ := List.exists_mem_of_ne_nil _ hnf
    exact List.ne_nil_of_mem (List.mem_flatMap.2 ⟨x, hx, List.mem_map_of_mem hx⟩)
  have iB : IsAvg true ((f.flatMap fun x => f.map fun x' => (x, x')).map (both fun x x' => |x - x'|))
      (some (avg ((present f).map fun x => avg ((present f).map fun x' => |x - x'|)))) := by
    have := isAvg_present (l := (f.flatMap fun x => f.map fun x' => (x, x')).map (both fun x x' => |x - x'|))
      (by rw [present_pairs]; exact hpn)
    rwa [present_pairs, avg_flatMap hnf] at this
  have mA := avgR_near hR S true (L := f) (fun x _ => nA x) iA iA
  have mB := avgR_near hR S true (L := f.flatMap fun x => f.map fun x' => (x, x')) (fun p _ => nB p) iB iB
  have hl2 : (f.flatMap fun x => f.map fun x' => (x, x')).length = ms.length * ms.length := by
    rw [List.length_flatMap]
    simp [hlen]
  rw [hlen] at mA
  rw [hl2] at mB
  simp only [avgR, if_true] at mA mB
  rcases mA with ⟨h, -⟩ | ⟨A, A', a, e1, e2, e3, e4⟩
  · cases h
  rcases mB with ⟨h, -⟩ | ⟨B, B', b, g1, g2, g3, g4⟩
  · cases h
  rw [Option.some.injEq] at e1 e2 g1 g2
  subst e1 e2 g1 g2
  have cA : Close u (2 + depth (S.tree ms.length) + 1) _ _ a := e4
  have cB : Close u (2 + depth (S.tree (ms.length * ms.length)) + 1) _ _ b := g4
  have cH : Close u 0 (1 / 2 : K) (-1 / 2) (-1 / 2) := ⟨by rw [abs_le]; constructor <;> norm_num, by simp⟩
  have cC := (cH.mul hu cB).rnd hR
  have hd1 : depth (S.tree ms.length) ≤ formulaDepth S ms.length := le_max_left _ _
  have hd2 : depth (S.tree (ms.length * ms.length)) ≤ formulaDepth S ms.length := le_max_right _ _
  have cD := ((cA.mono hu (k := formulaDepth S ms.length + 4) (by omega)).add (cC.mono hu (by omega))).rnd hR
  refine ⟨R.rnd (a + R.rnd (-1 / 2 * b)), ?_, ?_⟩
  · unfold psFormulaR
    simp only [hf]
    have hw : ((f.map fun x => x.map fun _ => (1 : K)).map fun a =>
        rop R (· / ·) a (nanmeanR R S (f.map fun x => x.map fun _ => (1 : K)))) = f.map fun x => x.map fun _ => (1 : K) := by
      rw [nanmeanR_ones S hnf hsf, List.map_map]
      refine List.map_congr_left fun x _ => ?_
      cases x with
      | none => rfl
      | some x => simp [rop, h1]
    rw [hw, zipWith_self_map]
    have hz : (f.map fun x => x.map fun _ => (1 : K)).zip f = f.map fun x => (x.map (fun _ => (1 : K)), x) := by
      rw [List.zip, zipWith_self_map]
    rw [hz, List.flatMap_map]
    simp only [List.map_map]
    rw [List.map_flatMap] at g3
    simp only [List.map_map] at g3
    rw [e3]
    simp only [Function.comp_def] at g3 ⊢
    rw [g3]
    rfl
  · convert cD using 1 <;> ring

end Lemmas
