import Verif.Lemmas.Boot
import Verif.Model.Reliability
import Verif.Spec.Reliability
import Mathlib.Data.List.Dedup

set_option linter.unusedSectionVars false

namespace Lemmas
open Np NDArr Spec Model

/-! ## digitize on an increasing grid -/

theorem countP_range_iff {P : Nat → Bool} (hdc : ∀ i, P (i + 1) = true → P i = true) (m : Nat) :
    ∀ i, i < m → (P i = true ↔ i < (List.range m).countP P) := by
  have hdc' : ∀ i j, j ≤ i → P i = true → P j = true := by
    intro i j hij
    induction i with
    | zero => intro h; have : j = 0 := by omega
              subst this; exact h
    | succ i ih =>
      intro h
      rcases Nat.lt_or_eq_of_le hij with h' | h'
      · exact ih (by omega) (hdc i h)
      · subst h'; exact h
  induction m with
  | zero => intro i hi; omega
  | succ m ih =>
    intro i hi
    rw [List.range_succ, List.countP_append, List.countP_singleton]
    by_cases hm : P m = true
    · have hall : (List.range m).countP P = m := by
        have : ∀ x ∈ List.range m, P x = true := by
          intro x hx; simp at hx; exact hdc' m x (by omega) hm
        rw [List.countP_eq_length.2 this]; simp
      rw [hall]
      simp only [hm, if_true]
      constructor
      · intro _; omega
      · intro _; exact hdc' m i (by omega) hm
    · simp only [hm, Bool.false_eq_true, if_false, Nat.add_zero]
      by_cases him : i = m
      · subst him
        have : (List.range i).countP P ≤ i := by
          have := List.countP_le_length (p := P) (l := List.range i); simpa using this
        constructor
        · intro h; exact absurd h hm
        · intro h; omega
      · exact ih i (by omega)

theorem countP_range_le {P : Nat → Bool} (m : Nat) : (List.range m).countP P ≤ m := by
  have := List.countP_le_length (p := P) (l := List.range m); simpa using this

section
variable {K : Type} [Field K] [LinearOrder K] [IsStrictOrderedRing K]

theorem relBins_eq {nbins : Nat} (h : 1 ≤ nbins) :
    (relBins nbins : List K) = (List.range (nbins + 1)).map (relEdge nbins) := by
  unfold relBins linspace
  rw [if_neg (by omega)]
  apply List.map_congr_left
  intro i hi
  simp only [Nat.add_sub_cancel, zero_add, sub_zero]
  unfold relEdge
  split
  · rename_i h'
    subst h'
    have : (i : K) ≠ 0 := by exact_mod_cast (by omega : i ≠ 0)
    field_simp
  · rfl

theorem relEdge_strictMono {nbins : Nat} (h : 1 ≤ nbins) : StrictMono (relEdge nbins : Nat → K) := by
  intro a b hab
  unfold relEdge
  have h1 : (0 : K) < (1 + 1 / 10 ^ 8) / (nbins : K) := by
    have : (0 : K) < nbins := by exact_mod_cast h
    positivity
  have h2 : (a : K) < b := by exact_mod_cast hab
  exact mul_lt_mul_of_pos_right h2 h1

theorem relEdge_zero (nbins : Nat) : (relEdge nbins 0 : K) = 0 := by simp [relEdge]

/-- a value is admissible for binning: NaN or not negative -/
def NonNegFl (x : Fl K) : Prop := ∀ v, x = some v → 0 ≤ v

/-- the bin number as a natural number -/
theorem digit_iff {nbins : Nat} (h : 1 ≤ nbins) {x : Fl K} (hx : NonNegFl x) (b : Nat) :
    ((digitize (relBins nbins) x : Int) - 1 = (b : Int)) ↔
      (b ≤ nbins ∧ inRelBin nbins b x = true) := by
  rw [relBins_eq h]
  cases x with
  | none =>
    simp [digitize, inRelBin]
    omega
  | some v =>
    have hv := hx v rfl
    simp only [digitize, List.countP_map, inRelBin, Bool.and_eq_true, Bool.or_eq_true,
      decide_eq_true_eq]
    set P : Nat → Bool := (fun e => decide (e ≤ v)) ∘ (relEdge nbins : Nat → K) with hP
    have hPi : ∀ i, P i = true ↔ relEdge nbins i ≤ v := by intro i; simp [hP]
    have hdc : ∀ i, P (i + 1) = true → P i = true := by
      intro i hi
      rw [hPi] at hi ⊢
      exact ((relEdge_strictMono h (by omega : i < i + 1)).le).trans hi
    have hc := countP_range_iff hdc (nbins + 1)
    have hle := countP_range_le (P := P) (nbins + 1)
    set c := (List.range (nbins + 1)).countP P
    have hc0 : 0 < c := by
      rw [← hc 0 (by omega), hPi, relEdge_zero]; exact hv
    constructor
    · intro hb
      have hcb : c = b + 1 := by omega
      refine ⟨by omega, ?_, ?_⟩
      · rw [← hPi, hc b (by omega)]; omega
      · by_cases hbn : b = nbins
        · exact Or.inl hbn
        · right
          have := (hc (b + 1) (by omega)).not.2 (by omega)
          rw [hPi] at this
          exact not_le.1 this
    · rintro ⟨hbn, h1, h2⟩
      rw [← hPi, hc b (by omega)] at h1
      have : c ≤ b + 1 := by
        rcases h2 with h2 | h2
        · omega
        · by_contra hcon
          push Not at hcon
          have : P (b + 1) = true := (hc (b + 1) (by omega)).2 hcon
          rw [hPi] at this
          exact absurd h2 (not_lt.2 this)
      omega

theorem digit_range {nbins : Nat} (h : 1 ≤ nbins) {x : Fl K} (hx : NonNegFl x) :
    0 ≤ (digitize (relBins nbins) x : Int) - 1 ∧
      (digitize (relBins nbins) x : Int) - 1 ≤ (nbins : Int) := by
  have hle : digitize (relBins nbins) x ≤ nbins + 1 := by
    rw [relBins_eq h]
    cases x with
    | none => simp [digitize]
    | some v =>
      have := List.countP_le_length (p := fun e => decide (e ≤ v))
        (l := (List.range (nbins + 1)).map (relEdge nbins : Nat → K))
      simpa [digitize] using this
  have hpos : 1 ≤ digitize (relBins nbins) x := by
    rw [relBins_eq h]
    cases x with
    | none => simp [digitize]
    | some v =>
      simp only [digitize]
      rw [Nat.one_le_iff_ne_zero, ← Nat.pos_iff_ne_zero, List.countP_pos_iff]
      exact ⟨relEdge nbins 0, List.mem_map_of_mem (by simp), by
        rw [relEdge_zero]; simpa using hx v rfl⟩
  omega

end

/-! ## counting and grouping -/

theorem valueCounts_eq {l S : List Int} (hs : S.Pairwise (· < ·)) (hm : ∀ v, v ∈ S ↔ v ∈ l) :
    valueCounts l = S.map fun v => (v, l.count v) := by
  unfold valueCounts
  congr 1
  have hp : (l.dedup.insertionSort (· ≤ ·)).Perm S := by
    refine (List.perm_insertionSort _ _).trans ?_
    rw [List.perm_ext_iff_of_nodup (List.nodup_dedup l) (hs.imp fun h => Int.ne_of_lt h)]
    intro a; rw [List.mem_dedup, hm]
  have h1 : (l.dedup.insertionSort (· ≤ ·)).Pairwise (· ≤ ·) := List.pairwise_insertionSort _ _
  exact hp.eq_of_pairwise (fun a b _ _ h h' => le_antisymm h h') h1 (hs.imp fun h => le_of_lt h)

theorem foldr_max_le {l : List Int} {m : Nat} (h : ∀ i ∈ l, i.toNat + 1 ≤ m) :
    l.foldr (fun i m => max (i.toNat + 1) m) 0 ≤ m := by
  induction l with
  | nil => simp
  | cons a l ih =>
    simp only [List.foldr_cons]
    exact max_le (h a (by simp)) (ih fun i hi => h i (by simp [hi]))

theorem zip_map_filter {α β : Type} (P : List α) (f : α → Int) (g : α → β) (b : Int) :
    (((P.map f).zip (P.map g)).filter fun p => p.1 = b).map Prod.snd =
      (P.filter fun a => f a = b).map g := by
  induction P with
  | nil => rfl
  | cons a P ih =>
    simp only [List.map_cons, List.zip_cons_cons, List.filter_cons]
    by_cases h : f a = b
    · simp [h, ih]
    · simp [h, ih]

theorem count_map_eq {α : Type} (P : List α) (f : α → Int) (b : Int) :
    (P.map f).count b = (P.filter fun a => f a = b).length := by
  induction P with
  | nil => rfl
  | cons a P ih =>
    by_cases h : f a = b
    · simp [h, ih]
    · simp [h, ih]

section
variable {K : Type} [Field K] [LinearOrder K] [IsStrictOrderedRing K]

/-- the bin ids of a list of pairs, as computed by `_reliability_create_split` -/
def idsOf (nbins : Nat) (P : List (Fl K × Bool)) : List Int :=
  P.map fun p => (digitize (relBins nbins) p.1 : Int) - 1

theorem group_eq {nbins : Nat} (h : 1 ≤ nbins) {P : List (Fl K × Bool)}
    (hP : ∀ p ∈ P, NonNegFl p.1) {b : Nat} (hb : b ≤ nbins) :
    (P.filter fun p => (digitize (relBins nbins) p.1 : Int) - 1 = (b : Int)) = relGroup nbins b P := by
  unfold relGroup
  apply List.filter_congr
  intro p hp
  have := digit_iff h (hP p hp) b
  rw [Bool.eq_iff_iff, decide_eq_true_eq, this]
  simp [hb]

theorem ids_nonneg {nbins : Nat} (h : 1 ≤ nbins) {P : List (Fl K × Bool)}
    (hP : ∀ p ∈ P, NonNegFl p.1) : ∀ i ∈ idsOf nbins P, 0 ≤ i ∧ i ≤ nbins := by
  intro i hi
  simp only [idsOf, List.mem_map] at hi
  obtain ⟨p, hp, rfl⟩ := hi
  exact digit_range h (hP p hp)

theorem ids_size {nbins : Nat} (h : 1 ≤ nbins) {P : List (Fl K × Bool)}
    (hP : ∀ p ∈ P, NonNegFl p.1) :
    max ((idsOf nbins P).foldr (fun i m => max (i.toNat + 1) m) 0) (nbins + 1) = nbins + 1 := by
  apply max_eq_right
  apply foldr_max_le
  intro i hi
  have := ids_nonneg h hP i hi
  omega

theorem relBins_length {nbins : Nat} (h : 1 ≤ nbins) : (relBins nbins : List K).length = nbins + 1 := by
  rw [relBins_eq h]; simp

theorem bincount_ids {nbins : Nat} (h : 1 ≤ nbins) {P : List (Fl K × Bool)}
    (hP : ∀ p ∈ P, NonNegFl p.1) :
    bincount (idsOf nbins P) (nbins + 1) =
      .ok ((List.range (nbins + 1)).map fun b => (relGroup nbins b P).length) := by
  unfold bincount
  rw [if_neg, ids_size h hP]
  · congr 1
    apply List.map_congr_left
    intro b hb
    simp at hb
    rw [idsOf, count_map_eq, group_eq h hP (by omega)]
  · rintro ⟨i, hi, hneg⟩
    have := ids_nonneg h hP i hi
    omega

theorem bincountW_ids {nbins : Nat} (h : 1 ≤ nbins) {P : List (Fl K × Bool)}
    (hP : ∀ p ∈ P, NonNegFl p.1) (g : Fl K × Bool → Fl K) :
    bincountW (idsOf nbins P) (P.map g) (nbins + 1) =
      .ok ((List.range (nbins + 1)).map fun b => fsum ((relGroup nbins b P).map g)) := by
  unfold bincountW
  rw [if_neg, if_neg, ids_size h hP]
  · congr 1
    apply List.map_congr_left
    intro b hb
    simp at hb
    rw [idsOf, zip_map_filter, group_eq h hP (by omega)]
  · simp [idsOf]
  · rintro ⟨i, hi, hneg⟩
    have := ids_nonneg h hP i hi
    omega

theorem div_fsum {L : List (Fl K)} (h : L ≠ []) : Fl.div (fsum L) (some (L.length : K)) = mean L := by
  have hl : (L.length : K) ≠ 0 := by
    have : L.length ≠ 0 := fun e => h (List.length_eq_zero_iff.1 e)
    exact_mod_cast this
  unfold mean
  rw [if_neg h]
  cases fsum L <;> simp [Fl.div, hl]

theorem ids_mem {nbins : Nat} (h : 1 ≤ nbins) {P : List (Fl K × Bool)}
    (hP : ∀ p ∈ P, NonNegFl p.1) (v : Int) :
    v ∈ (relNonEmpty nbins P).map Int.ofNat ↔ v ∈ idsOf nbins P := by
  simp only [relNonEmpty, List.mem_map, List.mem_filter, List.mem_range, decide_eq_true_eq]
  constructor
  · rintro ⟨b, ⟨hb, hne⟩, rfl⟩
    obtain ⟨p, hp⟩ := List.exists_mem_of_ne_nil _ hne
    rw [← group_eq h hP (by omega), List.mem_filter, decide_eq_true_eq] at hp
    simp only [idsOf, List.mem_map]
    exact ⟨p, hp.1, hp.2⟩
  · intro hv
    have hr := ids_nonneg h hP v hv
    simp only [idsOf, List.mem_map] at hv
    obtain ⟨p, hp, rfl⟩ := hv
    refine ⟨((digitize (relBins nbins) p.1 : Int) - 1).toNat, ⟨by omega, ?_⟩, by
      simp; omega⟩
    intro hnil
    rw [← group_eq h hP (by omega)] at hnil
    have : p ∈ P.filter fun q => (digitize (relBins nbins) q.1 : Int) - 1 =
        ((((digitize (relBins nbins) p.1 : Int) - 1).toNat : Nat) : Int) := by
      rw [List.mem_filter]; refine ⟨hp, ?_⟩; simp; omega
    rw [hnil] at this
    simp at this

theorem relNonEmpty_sorted (nbins : Nat) (P : List (Fl K × Bool)) :
    (relNonEmpty nbins P).Pairwise (· < ·) := (List.pairwise_lt_range).filter _

theorem valueCounts_ids {nbins : Nat} (h : 1 ≤ nbins) {P : List (Fl K × Bool)}
    (hP : ∀ p ∈ P, NonNegFl p.1) :
    valueCounts (idsOf nbins P) =
      (relNonEmpty nbins P).map fun (b : Nat) => ((b : Int), (relGroup nbins b P).length) := by
  rw [valueCounts_eq (S := (relNonEmpty nbins P).map Int.ofNat) ?_ (ids_mem h hP), List.map_map]
  · apply List.map_congr_left
    intro b hb
    simp only [relNonEmpty, List.mem_filter, List.mem_range] at hb
    simp only [Function.comp_apply, Prod.mk.injEq]
    refine ⟨rfl, ?_⟩
    have := count_map_eq P (fun p => (digitize (relBins nbins) p.1 : Int) - 1) (b : Int)
    rw [group_eq h hP (by omega)] at this
    exact this
  · rw [List.pairwise_map]
    exact (relNonEmpty_sorted nbins P).imp fun h => by simpa using h

/-- What `_reliability_agg_no_boot_slice` returns, in terms of the pairs. -/
theorem relNoBootSlice_eq {nbins : Nat} (h : 1 ≤ nbins) (P : List (Fl K × Bool))
    (hP : ∀ p ∈ P, NonNegFl p.1) :
    relNoBootSlice (idsOf nbins P) (P.map Prod.fst) (P.map Prod.snd) (relBins nbins) =
      .ok ⟨(relNonEmpty nbins P).map fun b => mean ((relGroup nbins b P).map Prod.fst),
        (relNonEmpty nbins P).map fun b => mean ((relGroup nbins b P).map fun p => ind p.2),
        (relNonEmpty nbins P).map fun (b : Nat) => ((b : Int), (relGroup nbins b P).length),
        valueCounts ((P.map Prod.snd).map b2i)⟩ := by
  unfold relNoBootSlice
  rw [relBins_length h, bincountW_ids h hP, List.map_map, bincountW_ids h hP, bincount_ids h hP,
    valueCounts_ids h hP]
  simp only [bind, Except.bind, pure, Except.pure, Except.ok.injEq]
  have hk : ((List.range ((List.range (nbins + 1)).map fun b =>
      (relGroup nbins b P).length).length).filter fun b =>
        ((List.range (nbins + 1)).map fun b => (relGroup nbins b P).length).getD b 0 ≠ 0) =
      relNonEmpty nbins P := by
    simp only [List.length_map, List.length_range, relNonEmpty]
    apply List.filter_congr
    intro b hb
    simp at hb
    simp [List.getD_eq_getElem?_getD, hb]
  simp only [hk]
  have hdiv : ∀ g : Fl K × Bool → Fl K, ((relNonEmpty nbins P).map fun b =>
      Fl.div (((List.range (nbins + 1)).map fun b => fsum ((relGroup nbins b P).map g)).getD b none)
        (some ((((List.range (nbins + 1)).map fun b => (relGroup nbins b P).length).getD b 0 : Nat) : K))) =
      (relNonEmpty nbins P).map fun b => mean ((relGroup nbins b P).map g) := by
    intro g
    apply List.map_congr_left
    intro b hb
    simp only [relNonEmpty, List.mem_filter, List.mem_range, decide_eq_true_eq] at hb
    have e1 : ((List.range (nbins + 1)).map fun b => fsum ((relGroup nbins b P).map g)).getD b none =
        fsum ((relGroup nbins b P).map g) := by
      simp [List.getD_eq_getElem?_getD, hb.1]
    have e2 : ((List.range (nbins + 1)).map fun b => (relGroup nbins b P).length).getD b 0 =
        ((relGroup nbins b P).map g).length := by
      simp [List.getD_eq_getElem?_getD, hb.1]
    rw [e1, e2]
    exact div_fsum (by simpa using hb.2)
  rw [hdiv Prod.fst]
  have := hdiv (b2k ∘ Prod.snd)
  rw [this]
  rfl

/-- A negative probability makes `np.bincount` raise. -/
theorem relNoBootSlice_neg {nbins : Nat} (h : 1 ≤ nbins) (P : List (Fl K × Bool))
    {p : Fl K × Bool} (hp : p ∈ P) {v : K} (hv : p.1 = some v) (hneg : v < 0) :
    relNoBootSlice (idsOf nbins P) (P.map Prod.fst) (P.map Prod.snd) (relBins nbins) =
      .error .value := by
  have hd : (digitize (relBins nbins) p.1 : Int) - 1 < 0 := by
    rw [hv, relBins_eq h]
    simp only [digitize, List.countP_map]
    have : (List.range (nbins + 1)).countP ((fun e => decide (e ≤ v)) ∘ (relEdge nbins : Nat → K)) = 0 := by
      rw [List.countP_eq_zero]
      intro i _
      simp only [Function.comp_apply, decide_eq_true_eq, not_le]
      have : (0 : K) ≤ relEdge nbins i := by
        rw [← relEdge_zero nbins]; exact (relEdge_strictMono h).monotone (by omega)
      linarith
    rw [this]; omega
  unfold relNoBootSlice bincountW
  rw [if_pos ⟨_, List.mem_map_of_mem hp, hd⟩]
  rfl

end

end Lemmas
