import Verif.Lemmas.Pairs
import Mathlib.Algebra.BigOperators.Ring.List
import Mathlib.Tactic.LinearCombination

set_option linter.unusedSectionVars false

namespace Lemmas
open Np NDArr Spec Model

variable {K : Type} [Field K] [LinearOrder K] [IsStrictOrderedRing K]

/-! ### the inner bin edges -/

theorem decompBins_eq (n : Nat) :
    (decompBins n : List K) = (List.range n).map fun (j : Nat) => ((j + 1 : Nat) : K) / ((n : K) + 1) := by
  unfold decompBins linspace
  rw [if_neg (by omega)]
  apply List.ext_getElem
  · simp
  · intro j h1 h2
    have hj : j < n := by simpa using h2
    simp only [List.getElem_dropLast, List.getElem_drop, List.getElem_map, List.getElem_range]
    rw [if_neg (by omega)]
    have e : ((n + 2 - 1 : Nat) : K) = (n : K) + 1 := by
      rw [show n + 2 - 1 = n + 1 from rfl]; push_cast; ring
    rw [e]
    have e2 : (1 + j : Nat) = j + 1 := by omega
    rw [e2]; ring

theorem countP_eq_imp {α : Type} (l : List α) (p q : α → Bool) (h : ∀ a ∈ l, p a = true → q a = true)
    (he : l.countP p = l.countP q) : ∀ a ∈ l, p a = q a := by
  induction l with
  | nil => simp
  | cons x l ih =>
    have hm : l.countP p ≤ l.countP q := List.countP_mono_left fun a ha => h a (by simp [ha])
    simp only [List.countP_cons] at he
    have hx := h x (by simp)
    have hpq : p x = q x ∧ l.countP p = l.countP q := by
      cases hp : p x <;> cases hq : q x <;> simp [hp, hq] at he hx ⊢ <;> omega
    intro a ha
    rcases List.mem_cons.1 ha with rfl | ha
    · exact hpq.1
    · exact ih (fun a ha => h a (by simp [ha])) hpq.2 a ha

/-- two numbers get the same `np.digitize` index iff no edge separates them -/
theorem digitize_eq_iff (n : Nat) (x y : K) :
    digitize (decompBins n) (some x) = digitize (decompBins n) (some y) ↔ sameBin n x y := by
  have hspec : sameBin n x y ↔ ∀ e ∈ (decompBins n : List K), decide (e ≤ x) = decide (e ≤ y) := by
    rw [decompBins_eq]
    unfold sameBin
    constructor
    · intro h e he
      obtain ⟨j, hj, rfl⟩ := List.mem_map.1 he
      rw [List.mem_range] at hj
      simpa using h (j + 1) (by omega) (by omega)
    · intro h j h1 h2
      have := h _ (List.mem_map.2 ⟨j - 1, by rw [List.mem_range]; omega, rfl⟩)
      rw [show j - 1 + 1 = j by omega] at this
      simpa using this
  rw [hspec]
  simp only [digitize]
  constructor
  · intro he
    rcases le_total x y with h | h
    · exact countP_eq_imp _ _ _ (fun a _ ha => by
        simp only [decide_eq_true_eq] at ha ⊢; exact ha.trans h) he
    · intro e hm
      exact (countP_eq_imp _ _ _ (fun a _ ha => by
        simp only [decide_eq_true_eq] at ha ⊢; exact ha.trans h) he.symm e hm).symm
  · intro h
    exact List.countP_congr fun a ha => by rw [h a ha]

/-- bin number of a pair -/
def keyOf (n : Nat) (p : K × K) : Nat := digitize (decompBins n) (some p.1)

theorem mates_eq (n : Nat) (P : List (K × K)) (p : K × K) :
    mates n P p = P.filter fun q => keyOf n q = keyOf n p := by
  unfold mates
  apply List.filter_congr
  intro q _
  have h : sameBin n p.1 q.1 ↔ keyOf n q = keyOf n p :=
    (digitize_eq_iff n p.1 q.1).symm.trans eq_comm
  exact decide_eq_decide.2 h

theorem sum_eq_avg {α : Type} (g : α → K) {L : List α} (hL : L ≠ []) :
    (L.map g).sum = (L.length : K) * avg (L.map g) := by
  have hpos : (L.length : K) ≠ 0 := by
    have : 0 < L.length := List.length_pos_iff.2 hL
    exact_mod_cast this.ne'
  unfold avg
  rw [List.length_map, mul_div_cancel₀ _ hpos]

theorem avg_sub_sum {α : Type} (g : α → K) (L : List α) :
    (L.map fun p => g p - avg (L.map g)).sum = 0 := by
  by_cases hL : L = []
  · subst hL; rfl
  have hpos : (L.length : K) ≠ 0 := by
    have : 0 < L.length := List.length_pos_iff.2 hL
    exact_mod_cast this.ne'
  have : ∀ c : K, (L.map fun p => g p - c).sum = (L.map g).sum - (L.length : K) * c := by
    intro c
    clear hpos hL
    induction L with
    | nil => simp
    | cons a L ih => simp only [List.map_cons, List.sum_cons, List.length_cons, ih]; push_cast; ring
  rw [this, avg, List.length_map]
  field_simp
  ring

/-- bounded keys exist -/
theorem key_bound {α : Type} (key : α → Nat) (P : List α) : ∃ m, ∀ p ∈ P, key p < m := by
  induction P with
  | nil => exact ⟨0, by simp⟩
  | cons a P ih =>
    obtain ⟨m, hm⟩ := ih
    refine ⟨max m (key a + 1), ?_⟩
    intro p hp
    rcases List.mem_cons.1 hp with rfl | hp
    · omega
    · have := hm p hp; omega

/-- deviations from the bin mean are orthogonal to everything constant on bins -/
theorem sum_dev_zero {α : Type} (key : α → Nat) (g : α → K) (H : Nat → K) (P : List α) :
    (P.map fun p => (g p - avg ((P.filter fun q => key q = key p).map g)) * H (key p)).sum = 0 := by
  obtain ⟨m, hm⟩ := key_bound key P
  rw [← sum_groups P key m hm]
  apply List.sum_eq_zero
  intro x hx
  obtain ⟨b, -, rfl⟩ := List.mem_map.1 hx
  have : ((P.filter fun p => key p = b).map fun p =>
      (g p - avg ((P.filter fun q => key q = key p).map g)) * H (key p)) =
      ((P.filter fun p => key p = b).map fun p =>
        (g p - avg ((P.filter fun q => key q = b).map g)) * H b) := by
    apply List.map_congr_left
    intro p hp
    have : key p = b := by simpa using (List.mem_filter.1 hp).2
    rw [this]
  rw [this, List.sum_map_mul_right, avg_sub_sum]
  simp

theorem sum_sq_expand {α : Type} (u v w : α → K) (P : List α) :
    (P.map fun p => (u p + v p - w p) ^ 2).sum =
      (P.map fun p => u p ^ 2 - 2 * u p * w p).sum + (P.map fun p => w p ^ 2).sum +
      (P.map fun p => v p ^ 2).sum + 2 * (P.map fun p => u p * v p).sum -
      2 * (P.map fun p => w p * v p).sum := by
  induction P with
  | nil => simp
  | cons p P ih => simp only [List.map_cons, List.sum_cons, ih]; ring

theorem sum_sq_expand2 {α : Type} (w z : α → K) (P : List α) :
    (P.map fun p => (w p + z p) ^ 2).sum =
      (P.map fun p => w p ^ 2).sum + (P.map fun p => z p ^ 2).sum +
      2 * (P.map fun p => w p * z p).sum := by
  induction P with
  | nil => simp
  | cons p P ih => simp only [List.map_cons, List.sum_cons, ih]; ring

/-- mean over the bin as a function of the bin number -/
noncomputable def grp (n : Nat) (P : List (K × K)) (g : K × K → K) (b : Nat) : K :=
  avg ((P.filter fun q => keyOf n q = b).map g)

theorem binF_eq (n : Nat) (P : List (K × K)) (p : K × K) : binF n P p = grp n P Prod.fst (keyOf n p) := by
  unfold binF grp; rw [mates_eq]

theorem binO_eq (n : Nat) (P : List (K × K)) (p : K × K) : binO n P p = grp n P Prod.snd (keyOf n p) := by
  unfold binO grp; rw [mates_eq]

theorem sum_binary {P : List (K × K)} (hP : P ≠ []) (hb : ∀ p ∈ P, p.2 = 0 ∨ p.2 = 1) :
    (P.map fun p => (p.2 - avg (P.map Prod.snd)) ^ 2).sum = (P.length : K) * specUnc P := by
  have hpos : (P.length : K) ≠ 0 := by
    have : 0 < P.length := List.length_pos_iff.2 hP
    exact_mod_cast this.ne'
  have h1 : ∀ c : K, ∀ Q : List (K × K), (∀ p ∈ Q, p.2 = 0 ∨ p.2 = 1) →
      (Q.map fun p => (p.2 - c) ^ 2).sum = (Q.map Prod.snd).sum * (1 - 2 * c) + (Q.length : K) * c ^ 2 := by
    intro c Q hQ
    induction Q with
    | nil => simp
    | cons a Q ih =>
      simp only [List.map_cons, List.sum_cons, List.length_cons]
      rw [ih fun p hp => hQ p (by simp [hp])]
      rcases hQ a (by simp) with h | h <;> rw [h] <;> push_cast <;> ring
  rw [h1 _ P hb, specUnc]
  have : (P.map Prod.snd).sum = (P.length : K) * avg (P.map Prod.snd) := by
    exact sum_eq_avg _ hP
  rw [this]; ring

/-- the decomposition identity of the specification -/
theorem spec_identity (n : Nat) {P : List (K × K)} (hP : P ≠ [])
    (hb : ∀ p ∈ P, p.2 = 0 ∨ p.2 = 1) :
    specBrier P = specRel n P - specRes n P + specUnc P + specWithin n P ∧
      (P.map fun p => (p.2 - binO n P p) ^ 2).sum = (P.length : K) * (specUnc P - specRes n P) := by
  have hpos : (P.length : K) ≠ 0 := by
    have : 0 < P.length := List.length_pos_iff.2 hP
    exact_mod_cast this.ne'
  -- orthogonality
  have o1 : (P.map fun p => (p.1 - binF n P p) * (binF n P p - binO n P p)).sum = 0 := by
    have := sum_dev_zero (keyOf n) Prod.fst (fun b => grp n P Prod.fst b - grp n P Prod.snd b) P
    rw [← this]
    congr 1
    apply List.map_congr_left
    intro p _
    rw [binF_eq, binO_eq]; rfl
  have o2 : (P.map fun p => (p.2 - binO n P p) * (binF n P p - binO n P p)).sum = 0 := by
    have := sum_dev_zero (keyOf n) Prod.snd (fun b => grp n P Prod.fst b - grp n P Prod.snd b) P
    rw [← this]
    congr 1
    apply List.map_congr_left
    intro p _
    rw [binF_eq, binO_eq]; rfl
  have o3 : (P.map fun p => (p.2 - binO n P p) * (binO n P p - avg (P.map Prod.snd))).sum = 0 := by
    have := sum_dev_zero (keyOf n) Prod.snd (fun b => grp n P Prod.snd b - avg (P.map Prod.snd)) P
    rw [← this]
    congr 1
    apply List.map_congr_left
    intro p _
    rw [binO_eq]; rfl
  have e1 := sum_sq_expand (fun p : K × K => p.1 - binF n P p) (fun p => binF n P p - binO n P p)
    (fun p => p.2 - binO n P p) P
  have e2 := sum_sq_expand2 (fun p : K × K => p.2 - binO n P p)
    (fun p => binO n P p - avg (P.map Prod.snd)) P
  rw [o1, o2] at e1
  rw [o3] at e2
  have e3 : (P.map fun p : K × K => (p.2 - binO n P p + (binO n P p - avg (P.map Prod.snd))) ^ 2) =
      P.map fun p => (p.2 - avg (P.map Prod.snd)) ^ 2 := by
    apply List.map_congr_left; intro p _; ring
  have e4 : (P.map fun p : K × K => (p.1 - binF n P p + (binF n P p - binO n P p) - (p.2 - binO n P p)) ^ 2) =
      P.map fun p => (p.1 - p.2) ^ 2 := by
    apply List.map_congr_left; intro p _; ring
  rw [e4] at e1
  rw [e3, sum_binary hP hb] at e2
  have hres : (P.map fun p => (binO n P p - avg (P.map Prod.snd)) ^ 2).sum = (P.length : K) * specRes n P := by
    unfold specRes; exact sum_eq_avg _ hP
  rw [hres] at e2
  have hw : (P.map fun p => (p.2 - binO n P p) ^ 2).sum = (P.length : K) * (specUnc P - specRes n P) := by
    linear_combination -e2
  refine ⟨?_, hw⟩
  rw [hw, sum_eq_avg _ hP, sum_eq_avg _ hP, sum_eq_avg _ hP] at e1
  have e5 : (P.length : K) * specBrier P = (P.length : K) *
      (specRel n P - specRes n P + specUnc P + specWithin n P) := by
    unfold specBrier specWithin
    have e6 : specRel n P = avg (P.map fun p => (binF n P p - binO n P p) ^ 2) := rfl
    rw [e6]
    linear_combination e1
  exact mul_left_cancel₀ hpos e5

/-! ### the loop of `_func_brier_decomp` -/

theorem maskEq_map (n b : Nat) (P : List (K × K)) (g : K × K → K) :
    maskEq (P.map (keyOf n)) b (P.map fun p => some (g p)) =
      ((P.filter fun p => keyOf n p = b).map g).map some := by
  unfold maskEq
  rw [List.zip_map', List.filter_map, List.map_map, List.map_map]
  rfl

theorem meanOf_some_list (skip : Bool) {l : List K} (hl : l ≠ []) :
    meanOf skip (l.map some) = some (avg l) := by
  cases skip with
  | true =>
    show nanmean _ = _
    rw [nanmean_eq _ (by rw [filterMap_id_map_some]; exact hl), filterMap_id_map_some]
    rfl
  | false => exact mean_some l hl

theorem le_foldr_max (l : List Nat) : ∀ x ∈ l, x ≤ l.foldr max 0 := by
  induction l with
  | nil => simp
  | cons a l ih =>
    intro x hx
    simp only [List.foldr_cons]
    rcases List.mem_cons.1 hx with rfl | hx
    · omega
    · have := ih x hx; omega

/-- `_func_brier_decomp` on numbers computes the specified terms -/
theorem funcBrierDecomp_spec (skip : Bool) (n : Nat) {P : List (K × K)} (hP : P ≠ []) :
    funcBrierDecomp skip n (P.map fun p => some p.1) (P.map fun p => some p.2) =
      .ok [some (specRel n P), some (specRes n P), some (specUnc P)] := by
  have hpos : (P.length : K) ≠ 0 := by
    have : 0 < P.length := List.length_pos_iff.2 hP
    exact_mod_cast this.ne'
  have hbel : (P.map fun p => (some p.1 : Fl K)).map (digitize (decompBins n)) = P.map (keyOf n) := by
    rw [List.map_map]; rfl
  have hobar : meanOf skip (P.map fun p => (some p.2 : Fl K)) = some (avg (P.map Prod.snd)) := by
    have := meanOf_some_list (K := K) skip (l := P.map Prod.snd) (by simpa using hP)
    rw [List.map_map] at this
    exact this
  unfold funcBrierDecomp
  simp only [hbel, hobar, List.length_map]
  rw [if_neg (by simpa using hP)]
  set ob := avg (P.map Prod.snd) with hob
  set G := fun b => P.filter fun p => keyOf n p = b with hG
  set t1 : Nat → K := fun b => ((G b).map fun p => (binF n P p - binO n P p) ^ 2).sum with ht1
  set t2 : Nat → K := fun b => ((G b).map fun p => (binO n P p - ob) ^ 2).sum with ht2
  have hfold : ∀ (l : List Nat) (a c : K), (l.foldl (fun (acc : Fl K × Fl K) (b : Nat) =>
      if List.count b (P.map (keyOf n)) ≠ 0 then
        (Fl.add acc.1 (Fl.mul (some ((List.count b (P.map (keyOf n)) : Nat) : K))
          (Fl.sq (Fl.sub (meanOf skip (maskEq (P.map (keyOf n)) b (P.map fun p => some p.1)))
            (meanOf skip (maskEq (P.map (keyOf n)) b (P.map fun p => some p.2)))))),
         Fl.add acc.2 (Fl.mul (some ((List.count b (P.map (keyOf n)) : Nat) : K))
          (Fl.sq (Fl.sub (meanOf skip (maskEq (P.map (keyOf n)) b (P.map fun p => some p.2)))
            (some ob)))))
      else acc) (some a, some c)) =
      (some (a + (l.map t1).sum), some (c + (l.map t2).sum)) := by
    intro l
    induction l with
    | nil => intro a c; simp
    | cons b l ih =>
      intro a c
      rw [List.foldl_cons]
      have hcount : List.count b (P.map (keyOf n)) = (G b).length := by
        rw [List.count, List.countP_map, hG, List.countP_eq_length_filter]
        congr 1
      have hF : ∀ p ∈ G b, binF n P p = avg ((G b).map Prod.fst) := by
        intro p hp
        have : keyOf n p = b := by simpa using (List.mem_filter.1 hp).2
        rw [binF_eq, this]; rfl
      have hO : ∀ p ∈ G b, binO n P p = avg ((G b).map Prod.snd) := by
        intro p hp
        have : keyOf n p = b := by simpa using (List.mem_filter.1 hp).2
        rw [binO_eq, this]; rfl
      by_cases hz : G b = []
      · rw [hcount, hz]
        simp only [List.length_nil, ne_eq, not_true_eq_false, if_false]
        rw [ih]
        simp [ht1, ht2, hz]
      · have hzl : (G b).length ≠ 0 := by simpa using hz
        rw [hcount, if_pos hzl]
        rw [maskEq_map, maskEq_map]
        rw [meanOf_some_list skip (fun h => hz (List.map_eq_nil_iff.1 h)),
          meanOf_some_list skip (fun h => hz (List.map_eq_nil_iff.1 h))]
        have e1 : t1 b = ((G b).length : K) * ((avg ((G b).map Prod.fst) - avg ((G b).map Prod.snd)) *
            (avg ((G b).map Prod.fst) - avg ((G b).map Prod.snd))) := by
          have : ((G b).map fun p => (binF n P p - binO n P p) ^ 2) =
              (G b).map fun _ => (avg ((G b).map Prod.fst) - avg ((G b).map Prod.snd)) ^ 2 := by
            apply List.map_congr_left; intro p hp; rw [hF p hp, hO p hp]
          simp only [ht1]
          rw [this, List.map_const', List.sum_replicate, nsmul_eq_mul, pow_two]
        have e2 : t2 b = ((G b).length : K) * ((avg ((G b).map Prod.snd) - ob) *
            (avg ((G b).map Prod.snd) - ob)) := by
          have : ((G b).map fun p => (binO n P p - ob) ^ 2) =
              (G b).map fun _ => (avg ((G b).map Prod.snd) - ob) ^ 2 := by
            apply List.map_congr_left; intro p hp; rw [hO p hp]
          simp only [ht2]
          rw [this, List.map_const', List.sum_replicate, nsmul_eq_mul, pow_two]
        have := ih (a + t1 b) (c + t2 b)
        rw [e1, e2] at this
        simp only [List.map_cons, List.sum_cons]
        rw [← add_assoc, ← add_assoc, e1, e2]
        exact this
  rw [hfold]
  have hk : ∀ p ∈ P, keyOf n p < (P.map (keyOf n)).foldr max 0 + 1 := by
    intro p hp
    have := le_foldr_max (P.map (keyOf n)) (keyOf n p) (List.mem_map_of_mem hp)
    omega
  have s1 : ((List.range ((P.map (keyOf n)).foldr max 0 + 1)).map t1).sum = (P.length : K) * specRel n P := by
    have := sum_groups P (keyOf n) _ hk (fun p => (binF n P p - binO n P p) ^ 2)
    rw [ht1, hG, this]
    unfold specRel; exact sum_eq_avg _ hP
  have s2 : ((List.range ((P.map (keyOf n)).foldr max 0 + 1)).map t2).sum = (P.length : K) * specRes n P := by
    have := sum_groups P (keyOf n) _ hk (fun p => (binO n P p - ob) ^ 2)
    rw [ht2, hG, this]
    unfold specRes; exact sum_eq_avg _ hP
  rw [s1, s2]
  simp only [Fl.div, if_neg hpos, zero_add]
  rw [mul_div_cancel_left₀ _ hpos, mul_div_cancel_left₀ _ hpos]
  rfl

/-! ### permutation invariance -/

theorem avg_perm {l m : List K} (h : l.Perm m) : avg l = avg m := by
  unfold avg; rw [h.sum_eq, h.length_eq]

theorem mates_perm (n : Nat) {P Q : List (K × K)} (h : P.Perm Q) (p : K × K) :
    (mates n P p).Perm (mates n Q p) := h.filter _

theorem specs_perm (n : Nat) {P Q : List (K × K)} (h : P.Perm Q) :
    specRel n P = specRel n Q ∧ specRes n P = specRes n Q ∧ specUnc P = specUnc Q ∧
      specBrier P = specBrier Q ∧ specWithin n P = specWithin n Q := by
  have hF : ∀ p, binF n P p = binF n Q p := fun p => avg_perm ((mates_perm n h p).map _)
  have hO : ∀ p, binO n P p = binO n Q p := fun p => avg_perm ((mates_perm n h p).map _)
  have ho := avg_perm (h.map Prod.snd)
  refine ⟨?_, ?_, ?_, ?_, ?_⟩
  · unfold specRel; simp only [hF, hO]; exact avg_perm (h.map _)
  · unfold specRes; simp only [hO, ho]; exact avg_perm (h.map _)
  · unfold specUnc; rw [ho]
  · unfold specBrier; exact avg_perm (h.map _)
  · unfold specWithin; simp only [hF, hO]; exact avg_perm (h.map _)

end Lemmas
