import Verif.Model.RoundingDecomp
import Verif.Spec.Votes
import Verif.Lemmas.RoundingBins
import Verif.Lemmas.Decomp

/-! The Brier decomposition in rounded arithmetic. -/

set_option linter.unusedSectionVars false

namespace Lemmas
open Np NDArr Spec Model

variable {K : Type} [Field K] [LinearOrder K] [IsStrictOrderedRing K] {R : Rounding K} {u : K}

/-! ### the edges -/

/-- inner edge `i` -/
def innerR (R : Rounding K) (n i : Nat) : K :=
  R.rnd (R.rnd ((i : K) * R.rnd (R.rnd (1 - 0) / ((n + 1 : Nat) : K))) + 0)

theorem decompBinsR_eq (n : Nat) : decompBinsR R n = (List.range n).map fun i => innerR R n (i + 1) := by
  unfold decompBinsR linspaceR
  rw [if_neg (by omega)]
  have e : n + 2 - 1 = n + 1 := by omega
  rw [e, show n + 2 = (n + 1) + 1 by omega, List.range_succ, List.map_append]
  simp only [List.map_cons, List.map_nil, if_true]
  rw [List.range_succ_eq_map, List.map_cons, List.map_map, List.cons_append, List.drop_succ_cons, List.drop_zero,
    List.dropLast_concat]
  apply List.map_congr_left
  intro i hi
  simp only [List.mem_range] at hi
  simp only [Function.comp_apply]
  rw [if_neg (by omega)]
  rfl

theorem innerR_near (hR : Accurate R u) {n i : Nat} (hi : i ≤ n + 1) (hu : u ≤ 1 / 10 ^ 10) :
    |innerR R n i - (i : K) / ((n : K) + 1)| ≤ 5 * u := by
  have hn : (0 : K) < ((n + 1 : Nat) : K) := by positivity
  have h1 : Close u 1 (1 : K) 1 (R.rnd (1 - 0)) := by
    have := (Close.exact hR.1 0 (1 : K)).rnd hR
    rw [abs_one] at this
    rw [sub_zero]; exact this
  have h2 : Close u 0 (i : K) (i : K) (i : K) := by
    have := Close.exact hR.1 0 (i : K)
    rwa [abs_of_nonneg (by positivity : (0 : K) ≤ i)] at this
  have h3 := ((h2.mul hR.1 ((h1.div hn).rnd hR)).rnd hR).rnd hR
  have h4 := h3.2
  have e : (i : K) * (1 / ((n + 1 : Nat) : K)) = (i : K) / ((n : K) + 1) := by push_cast; ring
  rw [e] at h4
  have hle : (i : K) / ((n : K) + 1) ≤ 1 := by
    rw [div_le_one (by positivity)]
    exact_mod_cast hi
  have h0 : (0 : K) ≤ (i : K) / ((n : K) + 1) := by positivity
  have hu0 := hR.1
  have hp : (1 + u) ^ 4 - 1 ≤ 5 * u := by
    have e : (1 + u) ^ 4 - 1 = u * (4 + u * (6 + u * (4 + u))) := by ring
    rw [e]
    have b1 : u * (4 + u) ≤ 1 := by nlinarith
    have b2 : u * (6 + u * (4 + u)) ≤ 1 := by nlinarith
    nlinarith
  have hp0 : 0 ≤ (1 + u) ^ 4 - 1 := by linarith [one_le hu0 4]
  unfold innerR
  rw [add_zero]
  refine h4.trans ?_
  calc _ ≤ ((1 + u) ^ 4 - 1) * 1 := mul_le_mul_of_nonneg_left hle hp0
    _ ≤ 5 * u := by rw [mul_one]; exact hp

theorem innerR_lt (hR : Accurate R u) {i : Nat} (hi : i ≤ 19) (hu : u ≤ 1 / 10 ^ 10) :
    innerR R 19 i < innerR R 19 (i + 1) := by
  have a := abs_le.1 (innerR_near hR (n := 19) (i := i) (by omega) hu)
  have b := abs_le.1 (innerR_near hR (n := 19) (i := i + 1) (by omega) hu)
  have e : (((i + 1 : Nat) : K)) / (((19 : Nat) : K) + 1) = (i : K) / (((19 : Nat) : K) + 1) + 1 / 20 := by
    push_cast; norm_num; ring
  rw [e] at b
  have := a.2
  have := b.1
  have : (11 : K) * (1 / 10 ^ 10) < 1 / 20 := by norm_num
  linarith

theorem innerR_mono (hR : Accurate R u) (hu : u ≤ 1 / 10 ^ 10) {i j : Nat} (hij : i < j) (hj : j ≤ 20) :
    innerR R 19 i < innerR R 19 j := by
  induction j with
  | zero => omega
  | succ j ih =>
    rcases Nat.lt_or_eq_of_le (Nat.lt_succ_iff.1 hij) with h' | h'
    · exact (ih h' (by omega)).trans (innerR_lt hR (by omega) hu)
    · subst h'; exact innerR_lt hR (by omega) hu

/-- the bin of a number -/
def innerBin (R : Rounding K) (v : K) : Nat := (List.range 19).countP fun i => decide (innerR R 19 (i + 1) ≤ v)

theorem digitizeR_inner (hR : Accurate R u) (hu : u ≤ 1 / 10 ^ 10) (v : K) :
    digitizeR (decompBinsR R 19) (some v) = .ok (innerBin R v) := by
  unfold digitizeR
  rw [if_pos]
  · simp only [digitize, innerBin]
    rw [decompBinsR_eq, List.countP_map]
    rfl
  · rw [decompBinsR_eq, List.pairwise_map]
    refine List.Pairwise.imp_of_mem ?_ List.pairwise_lt_range
    intro i j hi hj hij
    simp only [List.mem_range] at hj
    exact (innerR_mono hR hu (by omega) (by omega)).le

theorem innerBin_le (v : K) : innerBin R v ≤ 19 := by
  have := List.countP_le_length (p := fun i => decide (innerR R 19 (i + 1) ≤ v)) (l := List.range 19)
  simpa [innerBin] using this

theorem innerBin_iff (hR : Accurate R u) (hu : u ≤ 1 / 10 ^ 10) (v : K) {i : Nat} (hi : i < 19) :
    innerR R 19 (i + 1) ≤ v ↔ i < innerBin R v := by
  set P : Nat → Bool := fun i => decide (i < 19 ∧ innerR R 19 (i + 1) ≤ v) with hP
  have hdc : ∀ i, P (i + 1) = true → P i = true := by
    intro i hi
    simp only [hP, decide_eq_true_eq] at hi ⊢
    exact ⟨by omega, (innerR_lt hR (by omega) hu).le.trans hi.2⟩
  have hc := countP_range_iff hdc 19 i hi
  have e : (List.range 19).countP P = innerBin R v := by
    unfold innerBin
    apply List.countP_congr
    intro j hj
    simp only [List.mem_range] at hj
    simp [hP, hj]
  rw [e] at hc
  rw [← hc]
  simp [hP, hi]

theorem innerBin_lt (hR : Accurate R u) (hu : u ≤ 1 / 10 ^ 10) {v w : K} {i : Nat} (h1 : 1 ≤ i) (h2 : i ≤ 19)
    (hv : v < innerR R 19 i) (hw : innerR R 19 i ≤ w) : innerBin R v < innerBin R w := by
  obtain ⟨j, rfl⟩ := Nat.exists_eq_add_of_le' h1
  have a := (innerBin_iff hR hu w (i := j) (by omega)).1 hw
  have b := (innerBin_iff hR hu v (i := j) (by omega)).not.1 (not_le.2 hv)
  omega

/-- different numbers of members out of at most 19 go to different bins -/
theorem votes_apart (hR : Accurate R u) (hu : u ≤ 1 / 10 ^ 10) {m k k' : Nat} (hm : m ≤ 19) (hk : k < k') (hk' : k' ≤ m)
    {v v' : K} (hv : |v - (k : K) / m| ≤ 8 * u) (hv' : |v' - (k' : K) / m| ≤ 8 * u) : innerBin R v < innerBin R v' := by
  have hmpos : 0 < m := by omega
  have hmK : (0 : K) < m := by exact_mod_cast hmpos
  set i := 20 * k / m + 1 with hi
  have h1 : 20 * k < i * m := by
    rw [hi, add_mul, one_mul]
    have := Nat.div_add_mod (20 * k) m
    rw [mul_comm m] at this
    have := Nat.mod_lt (20 * k) hmpos
    omega
  have h2 : i * m ≤ 20 * k + m := by
    rw [hi, add_mul, one_mul]
    have := Nat.div_mul_le_self (20 * k) m
    omega
  have h3 : i * m < 20 * k' := by omega
  have h4 : i ≤ 19 := by
    by_contra hc
    have : 20 * m ≤ i * m := Nat.mul_le_mul_right m (by omega)
    have : 20 * k' ≤ 20 * m := Nat.mul_le_mul_left 20 hk'
    omega
  have hn := abs_le.1 (innerR_near hR (n := 19) (i := i) (by omega) hu)
  have a := abs_le.1 hv
  have b := abs_le.1 hv'
  have hm19 : (m : K) ≤ 19 := by exact_mod_cast hm
  have hu0 := hR.1
  have g1 : (k : K) / m + 1 / 380 ≤ (i : K) / (((19 : Nat) : K) + 1) := by
    have : (20 : K) * k + 1 ≤ (i : K) * m := by exact_mod_cast h1
    have e : ((19 : Nat) : K) + 1 = 20 := by norm_num
    rw [e, div_add' _ _ _ hmK.ne', div_le_div_iff₀ hmK (by norm_num)]
    nlinarith
  have g2 : (i : K) / (((19 : Nat) : K) + 1) + 1 / 380 ≤ (k' : K) / m := by
    have : (i : K) * m + 1 ≤ (20 : K) * k' := by exact_mod_cast h3
    have e : ((19 : Nat) : K) + 1 = 20 := by norm_num
    rw [e, div_add' _ _ _ (by norm_num : (20 : K) ≠ 0), div_le_div_iff₀ (by norm_num) hmK]
    nlinarith
  have hs : (14 : K) * (1 / 10 ^ 10) < 1 / 380 := by norm_num
  refine innerBin_lt hR hu (i := i) (by rw [hi]; exact Nat.le_add_left 1 _) h4 ?_ ?_
  · linarith [a.2, hn.1]
  · linarith [b.1, hn.2]

/-! ### averages -/

theorem avgR_close (hR : Accurate R u) (S : SumOrder) (skip : Bool) {ι : Type} {L : List ι} (hL : L ≠ []) {x e : ι → K} {j : Nat}
    (h : ∀ i ∈ L, Close u j 1 (e i) (x i)) :
    ∃ w, meanOfR R S skip (L.map fun i => some (x i)) = some w ∧ Close u (j + L.length) 1 (avg (L.map e)) w := by
  have hn : L.length ≠ 0 := by simpa using hL
  have isavg : ∀ g : ι → K, IsAvg skip (L.map fun i => some (g i)) (some (avg (L.map g))) := by
    intro g
    unfold IsAvg
    have e1 : present (L.map fun i => (some (g i) : Fl K)) = L.map g := by
      unfold present
      rw [List.filterMap_map]
      induction L with
      | nil => rfl
      | cons a L ih => simp
    rw [e1, if_neg]
    push Not
    refine ⟨fun _ hm => ?_, by simpa using hL⟩
    obtain ⟨i, -, hi⟩ := List.mem_map.1 hm
    cases hi
  have := avgR_near hR S skip (L := L) (a := fun _ => some 1) (e := fun i => some (e i)) (x := fun i => some (x i)) (j := j)
    (fun i hi => .inr ⟨1, e i, x i, rfl, rfl, rfl, (h i hi).1, (h i hi).2⟩) (isavg fun _ => 1) (isavg e)
  have h1 : avg (L.map fun _ => (1 : K)) = 1 := by
    unfold avg
    rw [List.map_const', List.sum_replicate, List.length_replicate, nsmul_eq_mul, mul_one, div_self]
    exact_mod_cast hn
  rw [h1] at this
  rcases this with ⟨h2, -⟩ | ⟨a', e', w, h2, h3, h4, h5, h6⟩
  · cases h2
  · cases h2; cases h3
    refine ⟨w, ?_, ?_⟩
    · rw [← h4]
      unfold meanOfR avgR
      cases skip <;> rfl
    · refine Close.mono hR.1 ?_ ⟨h5, h6⟩
      have := depth_lt S hn
      omega

theorem Close.sub {j : Nat} {a b e f x y : K} (h : Close u j a e x) (h' : Close u j b f y) :
    Close u j (a + b) (e - f) (x - y) := by
  have : Close u j b (-f) (-y) := by
    refine ⟨by rw [abs_neg]; exact h'.1, ?_⟩
    rw [neg_sub_neg, abs_sub_comm]; exact h'.2
  rw [sub_eq_add_neg, sub_eq_add_neg]
  exact h.add this

/-! ### the loop -/

section Loop
variable {ι : Type} {L : List ι} {β : ι → Nat} {x e : ι → K} {o : ι → K}

/-- the average of `g` over the elements in the bin of `i` -/
def cellAvg (β : ι → Nat) (L : List ι) (g : ι → K) (i : ι) : K := avg ((L.filter fun j => β j = β i).map g)

theorem weighted_close (hR : Accurate R u) {j n : Nat} {p q x y : K} (h : Close u j 1 p x) (h' : Close u j 1 q y) :
    ∃ w, weightedSqR R n (some x) (some y) = some w ∧ Close u (2 * j + 4) ((n : K) * 4) ((n : K) * (p - q) ^ 2) w := by
  have h1 := (h.sub h').rnd hR
  have h2 := (h1.mul hR.1 h1).rnd hR
  have h3 : Close u 0 (n : K) (n : K) (n : K) := by
    have := Close.exact hR.1 0 (n : K)
    rwa [abs_of_nonneg (by positivity : (0 : K) ≤ n)] at this
  have h4 := (h3.mul hR.1 h2).rnd hR
  refine ⟨_, rfl, ?_⟩
  have e1 : ((1 : K) + 1) * (1 + 1) = 4 := by norm_num
  rw [e1, ← pow_two] at h4
  exact h4.mono hR.1 (by omega)

theorem maskEq_key (b : Nat) (g : ι → K) :
    maskEq (L.map β) b (L.map fun i => some (g i)) = (L.filter fun i => β i = b).map fun i => some (g i) := by
  unfold maskEq
  rw [List.zip_map', List.filter_map, List.map_map]
  rfl

theorem count_key (b : Nat) : (L.map β).count b = (L.filter fun i => β i = b).length := by
  rw [List.count, List.countP_map, List.countP_eq_length_filter]
  congr 1

/-- the rounded decomposition is close to the exact one with the same bins -/
theorem decompR_close (hR : Accurate R u) (hu : u ≤ 1 / 10 ^ 10) (S : SumOrder) (skip : Bool) (hL : L ≠ [])
    (hx : ∀ i ∈ L, Close u 8 1 (e i) (x i)) (ho : ∀ i ∈ L, |o i| ≤ 1) :
    ∃ rel res unc, funcBrierDecompR R S skip 19 (L.map fun i => some (x i)) (L.map fun i => some (o i)) =
        .ok [some rel, some res, some unc] ∧
      Close u (2 * L.length + 41) 4
        (avg (L.map fun i => (cellAvg (fun j => innerBin R (x j)) L e i - cellAvg (fun j => innerBin R (x j)) L o i) ^ 2)) rel ∧
      Close u (2 * L.length + 41) 4
        (avg (L.map fun i => (cellAvg (fun j => innerBin R (x j)) L o i - avg (L.map o)) ^ 2)) res ∧
      Close u (2 * L.length + 41) 4 (avg (L.map o) * (1 - avg (L.map o))) unc := by
  set β : ι → Nat := fun j => innerBin R (x j) with hβ
  have hu0 := hR.1
  have hlen : 0 < L.length := List.length_pos_iff.2 hL
  have hpos : (0 : K) < L.length := by exact_mod_cast hlen
  have hbel : mapE (digitizeR (decompBinsR R 19)) (L.map fun i => some (x i)) = .ok (L.map β) := by
    rw [mapE_ok, List.forall₂_map_left_iff, List.forall₂_map_right_iff, List.forall₂_same]
    intro i _
    exact digitizeR_inner hR hu (x i)
  have hoc : ∀ i ∈ L, Close u 0 1 (o i) (o i) := fun i hi => ⟨ho i hi, by simp⟩
  obtain ⟨ob, hob, cob⟩ := avgR_close hR S skip hL hoc
  rw [zero_add] at cob
  set G : Nat → List ι := fun b => L.filter fun i => β i = b with hG
  set t1 : Nat → K := fun b => ((G b).map fun i => (cellAvg β L e i - cellAvg β L o i) ^ 2).sum with ht1
  set t2 : Nat → K := fun b => ((G b).map fun i => (cellAvg β L o i - avg (L.map o)) ^ 2).sum with ht2
  set s4 : Nat → K := fun b => ((G b).map fun _ => (4 : K)).sum with hs4
  set n := L.length with hn
  have hfold : ∀ (l : List Nat) (j : Nat) (a c A C E F : K), 2 * n + 20 ≤ j → Close u j A E a → Close u j C F c →
      ∃ a' c', l.foldl (fun (acc : Fl K × Fl K) (b : Nat) =>
        if (L.map β).count b ≠ 0 then
          (rop R (· + ·) acc.1 (weightedSqR R ((L.map β).count b)
              (meanOfR R S skip (maskEq (L.map β) b (L.map fun i => some (x i))))
              (meanOfR R S skip (maskEq (L.map β) b (L.map fun i => some (o i))))),
            rop R (· + ·) acc.2 (weightedSqR R ((L.map β).count b)
              (meanOfR R S skip (maskEq (L.map β) b (L.map fun i => some (o i)))) (some ob)))
        else acc) (some a, some c) = (some a', some c') ∧
        Close u (j + l.length) (A + (l.map s4).sum) (E + (l.map t1).sum) a' ∧
        Close u (j + l.length) (C + (l.map s4).sum) (F + (l.map t2).sum) c' := by
    intro l
    induction l with
    | nil => intro j a c A C E F _ h1 h2; exact ⟨a, c, rfl, by simpa using h1, by simpa using h2⟩
    | cons b l ih =>
      intro j a c A C E F hj h1 h2
      rw [List.foldl_cons, count_key]
      by_cases hz : G b = []
      · have hz' : (L.filter fun i => β i = b) = [] := hz
        rw [hz']
        simp only [List.length_nil, ne_eq, not_true_eq_false, if_false]
        obtain ⟨a', c', g1, g2, g3⟩ := ih j a c A C E F hj h1 h2
        refine ⟨a', c', g1, ?_, ?_⟩
        · have : s4 b = 0 ∧ t1 b = 0 := by simp [hs4, ht1, hz]
          rw [List.map_cons, List.sum_cons, this.1, zero_add, List.map_cons, List.sum_cons, this.2, zero_add]
          exact g2.mono hu0 (by simp)
        · have : s4 b = 0 ∧ t2 b = 0 := by simp [hs4, ht2, hz]
          rw [List.map_cons, List.sum_cons, this.1, zero_add, List.map_cons, List.sum_cons, this.2, zero_add]
          exact g3.mono hu0 (by simp)
      · have hzl : (G b).length ≠ 0 := by simpa using hz
        have hle : (G b).length ≤ n := List.length_filter_le _ _
        rw [if_pos (show (L.filter fun i => β i = b).length ≠ 0 from hzl)]
        have sub : ∀ i ∈ G b, i ∈ L := fun i hi => (List.mem_filter.1 hi).1
        obtain ⟨fm, hfm, cfm⟩ := avgR_close hR S skip hz (x := x) (e := e) fun i hi => hx i (sub i hi)
        obtain ⟨om, hom, com⟩ := avgR_close hR S skip hz (x := o) (e := o) fun i hi => hoc i (sub i hi)
        have hfm' : meanOfR R S skip (maskEq (L.map β) b (L.map fun i => some (x i))) = some fm := by
          rw [maskEq_key]; exact hfm
        have hom' : meanOfR R S skip (maskEq (L.map β) b (L.map fun i => some (o i))) = some om := by
          rw [maskEq_key]; exact hom
        rw [hfm', hom']
        obtain ⟨w1, e1, c1⟩ := weighted_close hR (n := (G b).length) (cfm.mono hu0 (show 8 + (G b).length ≤ 8 + n by omega))
          (com.mono hu0 (show 0 + (G b).length ≤ 8 + n by omega))
        obtain ⟨w2, e2, c2⟩ := weighted_close hR (n := (G b).length) (com.mono hu0 (show 0 + (G b).length ≤ 8 + n by omega))
          (cob.mono hu0 (show n ≤ 8 + n by omega))
        have e1' : weightedSqR R (L.filter fun i => β i = b).length (some fm) (some om) = some w1 := e1
        have e2' : weightedSqR R (L.filter fun i => β i = b).length (some om) (some ob) = some w2 := e2
        rw [e1', e2']
        simp only [rop]
        have d1 := (h1.add (c1.mono hu0 (show 2 * (8 + n) + 4 ≤ j by omega))).rnd hR
        have d2 := (h2.add (c2.mono hu0 (show 2 * (8 + n) + 4 ≤ j by omega))).rnd hR
        obtain ⟨a', c', g1, g2, g3⟩ := ih (j + 1) _ _ _ _ _ _ (by omega) d1 d2
        have hcell : ∀ (g : ι → K), ∀ i ∈ G b, cellAvg β L g i = avg ((G b).map g) := by
          intro g i hi
          have : β i = b := by simpa using (List.mem_filter.1 hi).2
          unfold cellAvg
          rw [this]
        have q4 : s4 b = ((G b).length : K) * 4 := by
          simp only [hs4]
          rw [List.map_const', List.sum_replicate, nsmul_eq_mul]
        have q1 : t1 b = ((G b).length : K) * (avg ((G b).map e) - avg ((G b).map o)) ^ 2 := by
          have : ((G b).map fun i => (cellAvg β L e i - cellAvg β L o i) ^ 2) =
              (G b).map fun _ => (avg ((G b).map e) - avg ((G b).map o)) ^ 2 := by
            apply List.map_congr_left; intro i hi; rw [hcell e i hi, hcell o i hi]
          simp only [ht1]
          rw [this, List.map_const', List.sum_replicate, nsmul_eq_mul]
        have q2 : t2 b = ((G b).length : K) * (avg ((G b).map o) - avg (L.map o)) ^ 2 := by
          have : ((G b).map fun i => (cellAvg β L o i - avg (L.map o)) ^ 2) =
              (G b).map fun _ => (avg ((G b).map o) - avg (L.map o)) ^ 2 := by
            apply List.map_congr_left; intro i hi; rw [hcell o i hi]
          simp only [ht2]
          rw [this, List.map_const', List.sum_replicate, nsmul_eq_mul]
        refine ⟨a', c', g1, ?_, ?_⟩
        · rw [List.map_cons, List.sum_cons, List.map_cons, List.sum_cons, List.length_cons, q4, q1,
            show j + (l.length + 1) = j + 1 + l.length by omega, ← add_assoc (_ : K), ← add_assoc (_ : K)]
          exact g2
        · rw [List.map_cons, List.sum_cons, List.map_cons, List.sum_cons, List.length_cons, q4, q2,
            show j + (l.length + 1) = j + 1 + l.length by omega, ← add_assoc (_ : K), ← add_assoc (_ : K)]
          exact g3
  have hbm : (L.map β).foldr max 0 ≤ 19 := by
    have : ∀ l : List Nat, (∀ y ∈ l, y ≤ 19) → l.foldr max 0 ≤ 19 := by
      intro l
      induction l with
      | nil => simp
      | cons a l ih =>
        intro h
        simp only [List.foldr_cons]
        have := ih fun y hy => h y (by simp [hy])
        have := h a (by simp)
        omega
    apply this
    intro y hy
    obtain ⟨i, -, rfl⟩ := List.mem_map.1 hy
    exact innerBin_le _
  obtain ⟨a, c, f1, f2, f3⟩ := hfold (List.range ((L.map β).foldr max 0 + 1)) (2 * n + 20) 0 0 0 0 0 0 le_rfl
    ⟨by simp, by simp⟩ ⟨by simp, by simp⟩
  have hk : ∀ i ∈ L, β i < (L.map β).foldr max 0 + 1 := by
    intro i hi
    have := le_foldr_max (L.map β) (β i) (List.mem_map_of_mem hi)
    omega
  have z1 : ((List.range ((L.map β).foldr max 0 + 1)).map t1).sum =
      (L.map fun i => (cellAvg β L e i - cellAvg β L o i) ^ 2).sum := sum_groups L β _ hk _
  have z2 : ((List.range ((L.map β).foldr max 0 + 1)).map t2).sum =
      (L.map fun i => (cellAvg β L o i - avg (L.map o)) ^ 2).sum := sum_groups L β _ hk _
  have z4 : ((List.range ((L.map β).foldr max 0 + 1)).map s4).sum = (n : K) * 4 := by
    have := sum_groups L β _ hk (fun _ => (4 : K))
    rw [hs4, hG, this, List.map_const', List.sum_replicate, nsmul_eq_mul]
  rw [zero_add, zero_add, z4, z1, List.length_range] at f2
  rw [zero_add, zero_add, z4, z2, List.length_range] at f3
  have four : (n : K) * 4 / n = 4 := by field_simp
  refine ⟨R.rnd (a / n), R.rnd (c / n), R.rnd (ob * R.rnd (1 - ob)), ?_, ?_, ?_, ?_⟩
  · unfold funcBrierDecompR
    rw [hbel]
    simp only [bind, Except.bind, hob]
    rw [if_neg (by simpa using hL), f1, List.length_map]
    simp only [rop, hn]
  · have := (f2.div hpos).rnd hR
    rw [four] at this
    unfold avg
    rw [List.length_map]
    exact this.mono hu0 (by omega)
  · have := (f3.div hpos).rnd hR
    rw [four] at this
    unfold avg at this ⊢
    rw [List.length_map, List.length_map] at *
    exact this.mono hu0 (by omega)
  · have h1 : Close u n 1 (1 : K) 1 := by
      have := Close.exact hu0 n (1 : K)
      rwa [abs_one] at this
    have h2 := (cob.mul hu0 ((h1.sub cob).rnd hR)).rnd hR
    refine Close.mono hu0 (show n + (n + 1) + 1 ≤ 2 * n + 41 by omega) ?_
    refine ⟨h2.1.trans (by norm_num), h2.2.trans ?_⟩
    have := one_le hu0 (n + (n + 1) + 1)
    apply mul_le_mul_of_nonneg_left _ (by linarith)
    norm_num

end Loop

end Lemmas
