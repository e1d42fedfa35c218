import Verif.Model.RoundingBins
import Verif.Spec.RoundingBins
import Verif.Lemmas.RoundingError
import Verif.Lemmas.Reliability

/-! The edges of the bins in rounded arithmetic, and the slices in terms of a bin function. -/

set_option linter.unusedSectionVars false

namespace Lemmas
open Np NDArr Spec Model

variable {K : Type} [Field K] [LinearOrder K] [IsStrictOrderedRing K] {R : Rounding K} {u : K}

/-! ### the edges -/

/-- the upper end of the last bin -/
def topR (R : Rounding K) : K := R.rnd (1 + R.rnd (1 / 10 ^ 8))

/-- edge `i` of `n` bins -/
def edgeR (R : Rounding K) (n i : Nat) : K :=
  if i = n then topR R else R.rnd (R.rnd ((i : K) * R.rnd (R.rnd (topR R - 0) / (n : K))) + 0)

theorem relBinsR_eq {n : Nat} (h : 1 ≤ n) : relBinsR R n = (List.range (n + 1)).map (edgeR R n) := by
  unfold relBinsR linspaceR
  rw [if_neg (by omega)]
  simp only [Nat.add_sub_cancel]
  rfl

theorem topR_close (hR : Accurate R u) : Close u 2 (1 + 1 / 10 ^ 8) (1 + 1 / 10 ^ 8) (topR R) := by
  have h1 : Close u 1 (1 / 10 ^ 8 : K) (1 / 10 ^ 8) (R.rnd (1 / 10 ^ 8)) := by
    have := (Close.exact hR.1 0 (1 / 10 ^ 8 : K)).rnd hR
    rwa [abs_of_pos (by positivity : (0 : K) < 1 / 10 ^ 8)] at this
  have h2 : Close u 1 (1 : K) 1 1 := by
    have := Close.exact hR.1 1 (1 : K)
    rwa [abs_one] at this
  exact (h2.add h1).rnd hR

theorem edgeR_close (hR : Accurate R u) {n i : Nat} (h : 1 ≤ n) (hi : i ≤ n) :
    Close u 6 (relEdge n i) (relEdge n i) (edgeR R n i) := by
  have hn : (0 : K) < n := by exact_mod_cast h
  unfold edgeR
  by_cases hin : i = n
  · rw [if_pos hin]
    subst hin
    have e : (relEdge i i : K) = 1 + 1 / 10 ^ 8 := by unfold relEdge; field_simp
    rw [e]
    exact (topR_close hR).mono hR.1 (by omega)
  · rw [if_neg hin, sub_zero, add_zero]
    have h1 := (((topR_close hR).rnd hR).div hn).rnd hR
    have h2 : Close u 0 (i : K) (i : K) (i : K) := by
      have := Close.exact hR.1 0 (i : K)
      rwa [abs_of_nonneg (by positivity : (0 : K) ≤ i)] at this
    have h3 := ((h2.mul hR.1 h1).rnd hR).rnd hR
    exact h3

/-- the rounded edges are within seven roundings of the exact ones -/
theorem edgeR_near (hR : Accurate R u) {n i : Nat} (h : 1 ≤ n) (hi : i ≤ n) (hu : u ≤ 1 / 10 ^ 10) :
    |edgeR R n i - relEdge n i| ≤ 7 * u := by
  have hn : (0 : K) < n := by exact_mod_cast h
  have h1 := (edgeR_close hR h hi).2
  have hle : (relEdge n i : K) ≤ 1 + 1 / 10 ^ 8 := by
    unfold relEdge
    rw [mul_div_assoc', div_le_iff₀ hn]
    have : (i : K) ≤ n := by exact_mod_cast hi
    nlinarith
  have hu0 := hR.1
  have hp : (1 + u) ^ 6 - 1 ≤ (6 + 1 / 100) * u := by
    have e : (1 + u) ^ 6 - 1 = u * (6 + u * (15 + u * (20 + u * (15 + u * (6 + u))))) := by ring
    rw [e]
    have b1 : u * (6 + u) ≤ 1 := by nlinarith
    have b2 : u * (15 + u * (6 + u)) ≤ 1 := by nlinarith
    have b3 : u * (20 + u * (15 + u * (6 + u))) ≤ 1 := by nlinarith
    have b4 : u * (15 + u * (20 + u * (15 + u * (6 + u)))) ≤ 1 / 100 := by nlinarith
    nlinarith
  have h0 : 0 ≤ (1 + u) ^ 6 - 1 := by linarith [one_le hu0 6]
  refine h1.trans ?_
  calc ((1 + u) ^ 6 - 1) * relEdge n i ≤ ((6 + 1 / 100) * u) * (1 + 1 / 10 ^ 8) :=
        mul_le_mul hp hle (by unfold relEdge; positivity) (by positivity)
    _ ≤ 7 * u := by nlinarith

theorem edgeR_zero {n : Nat} (h : 1 ≤ n) : edgeR R n 0 = 0 := by
  unfold edgeR
  rw [if_neg (by omega)]
  simp [rnd_zero]

/-- accuracy good enough for `n` bins -/
def Fine (u : K) (n : Nat) : Prop := 1 ≤ n ∧ u * n ≤ 1 / 10 ^ 10

theorem Fine.small {n : Nat} (h : Fine u n) (hu : 0 ≤ u) : u ≤ 1 / 10 ^ 10 := by
  have : (1 : K) ≤ n := by exact_mod_cast h.1
  have := h.2
  nlinarith

theorem Fine.div {n : Nat} (h : Fine u n) : u ≤ 1 / 10 ^ 10 / n := by
  have hn : (0 : K) < n := by exact_mod_cast h.1
  rw [le_div_iff₀ hn]
  exact h.2

theorem edgeR_lt (hR : Accurate R u) {n i : Nat} (h : Fine u n) (hi : i < n) : edgeR R n i < edgeR R n (i + 1) := by
  have hn : (0 : K) < n := by exact_mod_cast h.1
  have hs := h.small hR.1
  have a := abs_le.1 (edgeR_near hR h.1 hi.le hs)
  have b := abs_le.1 (edgeR_near hR h.1 (show i + 1 ≤ n from hi) hs)
  have e : (relEdge n (i + 1) : K) = relEdge n i + (1 + 1 / 10 ^ 8) / n := by unfold relEdge; push_cast; ring
  have hd := h.div
  have h1 : (1 + 1 / 10 ^ 8 : K) / n = (10 ^ 10 + 100) * (1 / 10 ^ 10 / n) := by
    field_simp
    norm_num
  have hp : (0 : K) < 1 / 10 ^ 10 / n := by positivity
  rw [e, h1] at b
  have := a.2
  have := b.1
  nlinarith

theorem edgeR_top (hR : Accurate R u) {n : Nat} (h : Fine u n) : 1 < edgeR R n n := by
  have hn : (0 : K) < n := by exact_mod_cast h.1
  have hs := h.small hR.1
  have b := (abs_le.1 (edgeR_near hR h.1 le_rfl hs)).1
  have e : (relEdge n n : K) = 1 + 1 / 10 ^ 8 := by unfold relEdge; field_simp
  rw [e] at b
  have : (7 : K) * (1 / 10 ^ 10) < 1 / 10 ^ 8 := by norm_num
  nlinarith

theorem edgeR_mono (hR : Accurate R u) {n : Nat} (h : Fine u n) {i j : Nat} (hij : i < j) (hj : j ≤ n) :
    edgeR R n i < edgeR R n j := by
  induction j with
  | zero => omega
  | succ j ih =>
    rcases Nat.lt_or_eq_of_le (Nat.lt_succ_iff.1 hij) with h' | h'
    · exact (ih h' (by omega)).trans (edgeR_lt hR h (by omega))
    · subst h'; exact edgeR_lt hR h (by omega)

theorem relBinsR_pairwise (hR : Accurate R u) {n : Nat} (h : Fine u n) : (relBinsR R n).Pairwise (· ≤ ·) := by
  rw [relBinsR_eq h.1, List.pairwise_map]
  refine List.Pairwise.imp_of_mem ?_ List.pairwise_lt_range
  intro i j hi hj hij
  exact (edgeR_mono hR h hij (by simp at hj; omega)).le

/-- the bin of a probability -/
theorem digitizeR_bin (hR : Accurate R u) {n : Nat} (h : Fine u n) {v : K} (h0 : 0 ≤ v) (h1 : v ≤ 1) :
    ∃ b, b < n ∧ digitizeR (relBinsR R n) (some v) = .ok (b + 1) ∧
      ∀ i, i ≤ n → (edgeR R n i ≤ v ↔ i ≤ b) := by
  have hm := relBinsR_pairwise hR h
  -- a predicate on all numbers
  set P : Nat → Bool := fun i => decide (i ≤ n ∧ edgeR R n i ≤ v) with hP
  have hdc : ∀ i, P (i + 1) = true → P i = true := by
    intro i hi
    simp only [hP, decide_eq_true_eq] at hi ⊢
    exact ⟨by omega, (edgeR_lt hR h (by omega)).le.trans hi.2⟩
  have hc := countP_range_iff hdc (n + 1)
  have hcount : (relBinsR R n).countP (fun e => decide (e ≤ v)) = (List.range (n + 1)).countP P := by
    rw [relBinsR_eq h.1, List.countP_map]
    apply List.countP_congr
    intro i hi
    simp only [List.mem_range] at hi
    simp [hP, show i ≤ n by omega]
  set c := (List.range (n + 1)).countP P with hcdef
  have c0 : 0 < c := (hc 0 (by omega)).1 (by simp [hP, edgeR_zero h.1, h0])
  have cn : ¬ n < c := by
    intro hlt
    have := (hc n (by omega)).2 hlt
    simp only [hP, decide_eq_true_eq] at this
    have := edgeR_top hR h
    linarith [this, ‹n ≤ n ∧ edgeR R n n ≤ v›.2]
  refine ⟨c - 1, by omega, ?_, ?_⟩
  · unfold digitizeR
    rw [if_pos hm]
    simp only [digitize, hcount]
    congr 1
    omega
  · intro i hi
    have := hc i (by omega)
    simp only [hP, decide_eq_true_eq, hi, true_and] at this
    rw [this]
    omega

/-- the bins of fractions are closed on the right -/
theorem edge_frac (hR : Accurate R u) {n m k : Nat} (h : Fine u n) (hm : 1 ≤ m) (hmn : m * n ≤ 10 ^ 7) {v : K}
    (h0 : 0 ≤ v) (hv : |v - (k : K) / m| ≤ 8 * u) {i : Nat} (hi : i ≤ n) :
    edgeR R n i ≤ v ↔ (i = 0 ∨ i * m < k * n) := by
  have hn : (0 : K) < n := by exact_mod_cast h.1
  have hm' : (0 : K) < m := by exact_mod_cast hm
  have hs := h.small hR.1
  have hd := h.div
  have ha := abs_le.1 (edgeR_near hR h.1 hi hs)
  have hv' := abs_le.1 hv
  have e : (relEdge n i : K) = (i : K) / n + (i : K) / n * (1 / 10 ^ 8) := by unfold relEdge; ring
  rcases Nat.eq_zero_or_pos i with rfl | hipos
  · simp only [edgeR_zero h.1, true_or, iff_true]; exact h0
  have hi1 : (i : K) / n ≤ 1 := (div_le_one hn).2 (by exact_mod_cast hi)
  have hi0 : (1 : K) / n ≤ (i : K) / n := div_le_div_of_nonneg_right (by exact_mod_cast hipos) hn.le
  constructor
  · intro hle
    right
    by_contra hcon
    have hcon' : (k : K) * n ≤ (i : K) * m := by exact_mod_cast not_lt.1 hcon
    have hkm : (k : K) / m ≤ (i : K) / n := by
      rw [div_le_div_iff₀ hm' hn]; linarith
    have h3 : (1 : K) / n * (1 / 10 ^ 8) = 100 * (1 / 10 ^ 10 / n) := by field_simp; norm_num
    have hp : (0 : K) < 1 / 10 ^ 10 / n := by positivity
    have h4 : (1 : K) / n * (1 / 10 ^ 8) ≤ (i : K) / n * (1 / 10 ^ 8) := mul_le_mul_of_nonneg_right hi0 (by positivity)
    rw [e] at ha
    have := ha.1
    have := hv'.2
    nlinarith
  · rintro (h' | hlt)
    · omega
    · have hlt' : (i : K) * m + 1 ≤ (k : K) * n := by exact_mod_cast hlt
      have hmn' : (m : K) * n ≤ 10 ^ 7 := by exact_mod_cast hmn
      have hkm : (i : K) / n + 1 / 10 ^ 7 ≤ (k : K) / m := by
        have h5 : (i : K) / n + 1 / ((m : K) * n) ≤ (k : K) / m := by
          rw [div_add_div _ _ hn.ne' (by positivity), div_le_div_iff₀ (by positivity) hm']
          have : (i : K) * ((m : K) * n) + n * 1 = n * (i * m + 1) := by ring
          rw [this]
          have : (k : K) * (n * (m * n)) = n * (k * n) * m := by ring
          rw [this]
          exact mul_le_mul_of_nonneg_right (mul_le_mul_of_nonneg_left hlt' hn.le) hm'.le
        have h6 : (1 : K) / 10 ^ 7 ≤ 1 / ((m : K) * n) := one_div_le_one_div_of_le (by positivity) hmn'
        linarith
      rw [e] at ha
      have := ha.2
      have := hv'.1
      have h7 : (i : K) / n * (1 / 10 ^ 8) ≤ 1 * (1 / 10 ^ 8) := mul_le_mul_of_nonneg_right hi1 (by positivity)
      have h8 : (15 : K) * (1 / 10 ^ 10) + 1 / 10 ^ 8 ≤ 1 / 10 ^ 7 := by norm_num
      nlinarith

/-- the bin of a fraction -/
theorem bin_frac {n m k b : Nat} (hk : k ≤ m) (hb : b < n)
    (h : ∀ i, i ≤ n → ((i = 0 ∨ i * m < k * n) ↔ i ≤ b)) (c : Nat) (hc : c < n) : FracBin n m k c ↔ b = c := by
  unfold FracBin
  constructor
  · rintro (⟨rfl, rfl⟩ | ⟨h1, h2⟩)
    · by_contra hne
      have := (h b hb.le).2 le_rfl
      omega
    · have h3 := (h c (by omega)).1 (.inr h1)
      have h4 := (h (c + 1) (by omega)).not.1 (by
        rintro (h' | h')
        · omega
        · omega)
      omega
  · rintro rfl
    have h1 := (h b hb.le).2 le_rfl
    have h2 := (h (b + 1) (by omega)).not.2 (by omega)
    push Not at h2
    rcases h1 with rfl | h1
    · rcases Nat.eq_zero_or_pos k with rfl | hkp
      · exact .inl ⟨rfl, rfl⟩
      · exact .inr ⟨by simp only [Nat.zero_mul]; exact Nat.mul_pos hkp (by omega), h2.2⟩
    · exact .inr ⟨h1, h2.2⟩

/-! ### sums -/

theorem foldl_unit (hR : Accurate R u) {L : List K} (h : ∀ x ∈ L, 0 ≤ x ∧ x ≤ 1) (j : Nat) (s e : K) (c : Nat)
    (hs : Close u j e e s) (h0 : 0 ≤ s) (hc : s ≤ c) (hsz : c + L.length ≤ R.size) :
    ∃ w, (L.map some).foldl (rop R (· + ·)) (some s) = some w ∧ 0 ≤ w ∧ w ≤ (c + L.length : Nat) ∧
      Close u (j + L.length) (e + L.sum) (e + L.sum) w := by
  induction L generalizing j s e c with
  | nil => exact ⟨s, rfl, h0, by simpa using hc, by simpa using hs⟩
  | cons x L ih =>
    obtain ⟨hx0, hx1⟩ := h x (by simp)
    have hcl : Close u (j + 1) (e + x) (e + x) (R.rnd (s + x)) := by
      have := Close.exact hR.1 j x
      rw [abs_of_nonneg hx0] at this
      exact (hs.add this).rnd hR
    have h0' : 0 ≤ R.rnd (s + x) := by
      have := R.mono (by linarith : (0 : K) ≤ s + x)
      rwa [rnd_zero] at this
    have hc' : R.rnd (s + x) ≤ ((c + 1 : Nat) : K) := by
      have h1 := R.mono (by push_cast; linarith : s + x ≤ ((c + 1 : Nat) : K))
      have h2 := R.exact_int ((c + 1 : Nat) : ℤ) (by
        simp only [List.length_cons] at hsz
        rw [abs_of_nonneg (by positivity)]
        exact_mod_cast (by omega : c + 1 ≤ R.size))
      push_cast at h1 h2 ⊢
      rwa [h2] at h1
    obtain ⟨w, w1, w2, w3, w4⟩ := ih (fun y hy => h y (by simp [hy])) (j + 1) (R.rnd (s + x)) (e + x) (c + 1) hcl h0' hc'
      (by simp only [List.length_cons] at hsz; omega)
    refine ⟨w, w1, w2, ?_, ?_⟩
    · rw [List.length_cons, show c + (L.length + 1) = c + 1 + L.length by omega]; exact w3
    · rw [List.length_cons, List.sum_cons, ← add_assoc e x, show j + (L.length + 1) = j + 1 + L.length by omega]; exact w4

theorem foldl_hits (L : List Bool) (c : Nat) (hsz : c + L.length ≤ R.size) :
    (L.map b2k).foldl (rop R (· + ·)) (some (c : K)) = some ((c + L.countP id : Nat) : K) := by
  induction L generalizing c with
  | nil => simp
  | cons b L ih =>
    simp only [List.length_cons] at hsz
    have hx : ∀ d : Nat, d ≤ R.size → R.rnd (d : K) = d := by
      intro d hd
      have := R.exact_int (d : ℤ) (by rw [abs_of_nonneg (by positivity)]; exact_mod_cast hd)
      simpa using this
    cases b with
    | false =>
      have := ih c (by omega)
      simp only [List.map_cons, List.foldl_cons, b2k, rop, Bool.false_eq_true, if_false, add_zero, hx c (by omega),
        List.countP_cons, id]
      simpa using this
    | true =>
      have := ih (c + 1) (by omega)
      have e : R.rnd ((c : K) + 1) = ((c + 1 : Nat) : K) := by
        have := hx (c + 1) (by omega)
        push_cast at this ⊢
        exact this
      simp only [List.map_cons, List.foldl_cons, b2k, rop, if_true, e]
      rw [this]
      simp only [List.countP_cons, id, if_true]
      congr 2
      omega

/-! ### the slices in terms of a bin function -/

section Slices
variable [FloorSemiring K] {n : Nat} {Q : List (Fl K × Bool)} {β : Fl K × Bool → Nat}

/-- the pairs in bin `b` -/
def binGrp (β : Fl K × Bool → Nat) (Q : List (Fl K × Bool)) (b : Nat) : List (Fl K × Bool) := Q.filter fun q => β q = b

theorem ids_foldr (hβ : ∀ q ∈ Q, β q < n) :
    max ((Q.map fun q => (β q : Int)).foldr (fun i m => max (i.toNat + 1) m) 0) (n + 1) = n + 1 := by
  apply max_eq_right
  apply foldr_max_le
  intro i hi
  obtain ⟨q, hq, rfl⟩ := List.mem_map.1 hi
  have := hβ q hq
  simp only [Int.toNat_natCast]
  omega

theorem not_neg : ¬ ∃ i ∈ Q.map (fun q => (β q : Int)), i < 0 := by
  rintro ⟨i, hi, h⟩
  obtain ⟨q, hq, rfl⟩ := List.mem_map.1 hi
  omega

theorem bincount_grp (hβ : ∀ q ∈ Q, β q < n) :
    bincount (Q.map fun q => (β q : Int)) (n + 1) = .ok ((List.range (n + 1)).map fun b => (binGrp β Q b).length) := by
  unfold bincount
  rw [if_neg not_neg, ids_foldr hβ]
  congr 1
  apply List.map_congr_left
  intro b _
  rw [count_map_eq]
  simp only [binGrp, Nat.cast_inj]

theorem bincountWR_grp (hβ : ∀ q ∈ Q, β q < n) (g : Fl K × Bool → Fl K) :
    bincountWR R (Q.map fun q => (β q : Int)) (Q.map g) (n + 1) =
      .ok ((List.range (n + 1)).map fun b => ((binGrp β Q b).map g).foldl (rop R (· + ·)) (some 0)) := by
  unfold bincountWR
  rw [if_neg not_neg, if_neg (by simp), ids_foldr hβ]
  congr 1
  apply List.map_congr_left
  intro b _
  rw [zip_map_filter]
  simp only [binGrp, Nat.cast_inj]

/-- the bins in use -/
def usedBins (β : Fl K × Bool → Nat) (Q : List (Fl K × Bool)) (n : Nat) : List Nat :=
  (List.range n).filter fun b => binGrp β Q b ≠ []

theorem valueCounts_grp (hβ : ∀ q ∈ Q, β q < n) :
    valueCounts (Q.map fun q => (β q : Int)) = (usedBins β Q n).map fun (b : Nat) => ((b : Int), (binGrp β Q b).length) := by
  rw [valueCounts_eq (S := (usedBins β Q n).map Int.ofNat), List.map_map]
  · apply List.map_congr_left
    intro b _
    simp only [Function.comp_apply, Prod.mk.injEq]
    refine ⟨rfl, ?_⟩
    rw [count_map_eq]
    simp only [binGrp, Int.ofNat_eq_natCast, Nat.cast_inj]
  · rw [List.pairwise_map]
    exact ((List.pairwise_lt_range).filter _).imp fun h => by simpa using h
  · intro v
    simp only [usedBins, List.mem_map, List.mem_filter, List.mem_range, decide_eq_true_eq]
    constructor
    · rintro ⟨b, ⟨-, hne⟩, rfl⟩
      obtain ⟨q, hq⟩ := List.exists_mem_of_ne_nil _ hne
      simp only [binGrp, List.mem_filter, decide_eq_true_eq] at hq
      exact ⟨q, hq.1, by simp [hq.2]⟩
    · rintro ⟨q, hq, rfl⟩
      refine ⟨β q, ⟨hβ q hq, ?_⟩, rfl⟩
      intro hnil
      have : q ∈ binGrp β Q (β q) := by simp [binGrp, hq]
      rw [hnil] at this
      cases this

theorem relNoBootSliceR_grp (hβ : ∀ q ∈ Q, β q < n) {bins : List K} (hb : bins.length = n + 1) :
    relNoBootSliceR R (Q.map fun q => (β q : Int)) (Q.map Prod.fst) (Q.map Prod.snd) bins =
      .ok ⟨(usedBins β Q n).map fun b =>
          rop R (· / ·) (((binGrp β Q b).map Prod.fst).foldl (rop R (· + ·)) (some 0)) (some ((binGrp β Q b).length : K)),
        (usedBins β Q n).map fun b =>
          rop R (· / ·) (((binGrp β Q b).map (b2k ∘ Prod.snd)).foldl (rop R (· + ·)) (some 0)) (some ((binGrp β Q b).length : K)),
        (usedBins β Q n).map fun (b : Nat) => ((b : Int), (binGrp β Q b).length),
        valueCounts ((Q.map Prod.snd).map b2i)⟩ := by
  unfold relNoBootSliceR
  rw [hb, bincountWR_grp hβ, List.map_map, bincountWR_grp hβ, bincount_grp hβ, valueCounts_grp hβ]
  simp only [bind, Except.bind, pure, Except.pure, Except.ok.injEq]
  have hk : ((List.range ((List.range (n + 1)).map fun b => (binGrp β Q b).length).length).filter fun b =>
      ((List.range (n + 1)).map fun b => (binGrp β Q b).length).getD b 0 ≠ 0) = usedBins β Q n := by
    simp only [List.length_map, List.length_range, usedBins]
    rw [List.range_succ, List.filter_append]
    have hnil : binGrp β Q n = [] := by
      simp only [binGrp, List.filter_eq_nil_iff, decide_eq_true_eq]
      intro q hq
      have := hβ q hq
      omega
    have e2 : [n].filter (fun b => decide ((List.map (fun b => (binGrp β Q b).length) (List.range n ++ [n])).getD b 0 ≠ 0)) = [] := by
      simp [List.getD_eq_getElem?_getD, hnil]
    rw [e2, List.append_nil]
    apply List.filter_congr
    intro b hb
    simp only [List.mem_range] at hb
    have : (List.map (fun b => (binGrp β Q b).length) (List.range n ++ [n])).getD b 0 = (binGrp β Q b).length := by
      rw [← List.range_succ]
      simp [List.getD_eq_getElem?_getD, show b < n + 1 by omega]
    rw [this]
    simp
  simp only [hk]
  have hdiv : ∀ g : Fl K × Bool → Fl K, ((usedBins β Q n).map fun b =>
      rop R (· / ·) (((List.range (n + 1)).map fun b => ((binGrp β Q b).map g).foldl (rop R (· + ·)) (some 0)).getD b none)
        (some ((((List.range (n + 1)).map fun b => (binGrp β Q b).length).getD b 0 : Nat) : K))) =
      (usedBins β Q n).map fun b =>
        rop R (· / ·) (((binGrp β Q b).map g).foldl (rop R (· + ·)) (some 0)) (some ((binGrp β Q b).length : K)) := by
    intro g
    apply List.map_congr_left
    intro b hb
    simp only [usedBins, List.mem_filter, List.mem_range] at hb
    have e1 : ((List.range (n + 1)).map fun b => ((binGrp β Q b).map g).foldl (rop R (· + ·)) (some 0)).getD b none =
        ((binGrp β Q b).map g).foldl (rop R (· + ·)) (some 0) := by
      simp [List.getD_eq_getElem?_getD, show b < n + 1 by omega]
    have e2 : ((List.range (n + 1)).map fun b => (binGrp β Q b).length).getD b 0 = (binGrp β Q b).length := by
      simp [List.getD_eq_getElem?_getD, show b < n + 1 by omega]
    rw [e1, e2]
  have h1 := hdiv Prod.fst
  have h2 := hdiv (b2k ∘ Prod.snd)
  rw [h1, h2]

theorem relSliceR_grp (hn : 1 ≤ n) (hβ : ∀ q ∈ Q, β q < n)
    (hd : ∀ q ∈ Q, digitizeR (relBinsR R n) q.1 = .ok (β q + 1)) :
    relSliceR R n (Q.map Prod.fst) (Q.map Prod.snd) =
      .ok ⟨(usedBins β Q n).map fun b =>
          rop R (· / ·) (((binGrp β Q b).map Prod.fst).foldl (rop R (· + ·)) (some 0)) (some ((binGrp β Q b).length : K)),
        (usedBins β Q n).map fun b =>
          rop R (· / ·) (((binGrp β Q b).map (b2k ∘ Prod.snd)).foldl (rop R (· + ·)) (some 0)) (some ((binGrp β Q b).length : K)),
        (usedBins β Q n).map fun (b : Nat) => ((b : Int), (binGrp β Q b).length),
        valueCounts ((Q.map Prod.snd).map b2i)⟩ := by
  unfold relSliceR
  have h1 : mapE (digitizeR (relBinsR R n)) (Q.map Prod.fst) = .ok (Q.map fun q => β q + 1) := by
    rw [mapE_ok, List.forall₂_map_left_iff, List.forall₂_map_right_iff, List.forall₂_same]
    exact hd
  rw [h1]
  simp only [bind, Except.bind]
  have h2 : (Q.map fun q => β q + 1).map (fun (i : Nat) => (i : Int) - 1) = Q.map fun q => (β q : Int) := by
    rw [List.map_map]
    apply List.map_congr_left
    intro q _
    simp
  rw [h2]
  exact relNoBootSliceR_grp (R := R) (bins := relBinsR R n) hβ (by rw [relBinsR_eq hn]; simp)

end Slices

end Lemmas
