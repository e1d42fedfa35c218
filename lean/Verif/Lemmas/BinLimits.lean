import Verif.Spec.BinLimits
import Verif.Lemmas.LongRun
import Verif.Lemmas.DecompChance
import Verif.Lemmas.BrierChance

/-! Limits of averages over bins: C132. -/

namespace Lemmas
open Np Spec MeasureTheory ProbabilityTheory Filter Topology

/-- averages over the members with a property -/
theorem avg_part {α : Type} (L : List α) (q : α → Prop) [DecidablePred q] (g : α → ℝ) :
    avg ((L.filter fun x => decide (q x)).map g) =
      avg (L.map fun x => (indicator (q x) : ℝ) * g x) / avg (L.map fun x => (indicator (q x) : ℝ)) := by
  have h1 : ((L.filter fun x => decide (q x)).map g).sum = (L.map fun x => (indicator (q x) : ℝ) * g x).sum := by
    induction L with
    | nil => rfl
    | cons x L ih =>
      by_cases hx : q x
      · rw [List.filter_cons_of_pos (by simpa using hx)]
        simp only [List.map_cons, List.sum_cons, ih, indicator, if_pos hx, one_mul]
      · rw [List.filter_cons_of_neg (by simpa using hx)]
        simp only [List.map_cons, List.sum_cons, ih, indicator, if_neg hx, zero_mul, zero_add]
  have h2 : ((L.filter fun x => decide (q x)).length : ℝ) = (L.map fun x => (indicator (q x) : ℝ)).sum := by
    clear h1
    induction L with
    | nil => simp
    | cons x L ih =>
      by_cases hx : q x
      · rw [List.filter_cons_of_pos (by simpa using hx)]
        simp only [List.length_cons, Nat.cast_add, Nat.cast_one, ih, List.map_cons, List.sum_cons, indicator, if_pos hx]
        ring
      · rw [List.filter_cons_of_neg (by simpa using hx)]
        simp only [ih, List.map_cons, List.sum_cons, indicator, if_neg hx, zero_add]
  cases L with
  | nil => simp [avg]
  | cons x L =>
    have hn : ((x :: L).length : ℝ) ≠ 0 := by
      rw [List.length_cons]
      positivity
    simp only [avg, List.length_map] at h1 h2 ⊢
    rw [h1, h2, div_div_div_cancel_right₀ hn]

variable {Ω : Type} [MeasurableSpace Ω] {P : Measure Ω} [IsProbabilityMeasure P] {E : Type} [MeasurableSpace E]

theorem settles_map {S : Nat → Ω → ℝ} {l : ℝ} (h : Settles P S l) {f : ℝ → ℝ} (hf : ContinuousAt f l) :
    Settles P (fun n ω => f (S n ω)) (f l) := by
  filter_upwards [h] with ω hω
  exact hf.tendsto.comp hω

/-- the share of the days on which `B` is the case -/
theorem settles_share {R : Nat → Ω → E} (h : SameDays P R) {B : Set E} (hB : MeasurableSet B) :
    Settles P (fun n ω => avg ((List.range (n + 1)).map fun d => (indicator (R d ω ∈ B) : ℝ))) (P.real {ω | R 0 ω ∈ B}) := by
  classical
  have hm : Measurable fun e : E => (indicator (e ∈ B) : ℝ) := by
    have : (fun e : E => (indicator (e ∈ B) : ℝ)) = B.indicator fun _ => 1 := by
      funext e; exact indicator_set (fun e => e ∈ B) e
    rw [this]
    exact measurable_const.indicator hB
  have hs : MeasurableSet {ω | R 0 ω ∈ B} := h.meas 0 hB
  have e : (fun ω => (indicator (R 0 ω ∈ B) : ℝ)) = {ω | R 0 ω ∈ B}.indicator fun _ => 1 := by
    funext ω; exact indicator_set (fun ω => R 0 ω ∈ B) ω
  have := settles_avg h hm (by rw [e]; exact (integrable_const 1).indicator hs)
  rw [e, integral_indicator hs] at this
  simpa using this

/-- sums over the days on which `B` is the case -/
theorem settles_part {R : Nat → Ω → E} (h : SameDays P R) {B : Set E} (hB : MeasurableSet B) {g : E → ℝ} (hg : Measurable g)
    (hi : Integrable (fun ω => g (R 0 ω)) P) :
    Settles P (fun n ω => avg ((List.range (n + 1)).map fun d => (indicator (R d ω ∈ B) : ℝ) * g (R d ω)))
      (∫ ω in {ω | R 0 ω ∈ B}, g (R 0 ω) ∂P) := by
  classical
  have e : ∀ e : E, (indicator (e ∈ B) : ℝ) * g e = B.indicator g e := by
    intro e
    by_cases he : e ∈ B <;> simp [indicator, he]
  have hs : MeasurableSet {ω | R 0 ω ∈ B} := h.meas 0 hB
  have e' : (fun ω => B.indicator g (R 0 ω)) = {ω | R 0 ω ∈ B}.indicator fun ω => g (R 0 ω) := by
    funext ω; rfl
  have := settles_avg h (hg.indicator hB) (by rw [e']; exact hi.indicator hs)
  rw [e', integral_indicator hs] at this
  simpa only [e] using this

/-- averages over the days on which `B` is the case -/
theorem settles_on {R : Nat → Ω → E} (h : SameDays P R) {B : Set E} [DecidablePred fun e => e ∈ B] (hB : MeasurableSet B)
    {g : E → ℝ} (hg : Measurable g) (hi : Integrable (fun ω => g (R 0 ω)) P) (hp : P.real {ω | R 0 ω ∈ B} ≠ 0) :
    Settles P (fun n ω => avg (((List.range (n + 1)).filter fun d => decide (R d ω ∈ B)).map fun d => g (R d ω)))
      (meanOn P {ω | R 0 ω ∈ B} fun ω => g (R 0 ω)) := by
  filter_upwards [settles_part h hB hg hi, settles_share h hB] with ω h1 h2
  refine (h1.div h2 hp).congr fun n => ?_
  exact (avg_part _ (fun d => R d ω ∈ B) _).symm

theorem tendsto_term {a f : Nat → ℝ} {a' f' : ℝ} (hb : ∀ n, |a n| ≤ f n) (ha : Tendsto a atTop (𝓝 a'))
    (hf : Tendsto f atTop (𝓝 f')) : Tendsto (fun n => a n ^ 2 / f n) atTop (𝓝 (a' ^ 2 / f')) := by
  by_cases h : f' = 0
  · subst h
    rw [div_zero]
    refine squeeze_zero (fun n => div_nonneg (sq_nonneg _) ((abs_nonneg _).trans (hb n))) (fun n => ?_) hf
    have h0 := (abs_nonneg _).trans (hb n)
    rcases h0.eq_or_lt with h0 | h0
    · rw [← h0, div_zero]
    · rw [div_le_iff₀ h0, ← sq_abs]
      nlinarith [hb n, abs_nonneg (a n)]
  · exact (ha.pow 2).div hf h

/-! ### The bins of decompositions -/

theorem decompBin_unique {n b c : Nat} {x : ℝ} (hb : b ≤ n) (hc : c ≤ n) (h : InDecompBin n b x) (h' : InDecompBin n c x) :
    b = c := by
  have key : ∀ {b c : Nat}, c ≤ n → InDecompBin n b x → InDecompBin n c x → ¬ b < c := by
    intro b c hc h h' hlt
    have h1 := h'.1.resolve_left (by omega)
    have h2 := h.2.resolve_left (by omega)
    have h3 : ((b : ℝ) + 1) / (n + 1) ≤ (c : ℝ) / (n + 1) := by
      refine div_le_div_of_nonneg_right ?_ (by positivity)
      exact_mod_cast hlt
    linarith
  have := key hc h h'
  have := key hb h' h
  omega

theorem decompBin_exists (n : Nat) (x : ℝ) : ∃ b ≤ n, InDecompBin n b x := by
  classical
  refine ⟨Nat.findGreatest (fun j : Nat => (j : ℝ) / (n + 1) ≤ x) n, Nat.findGreatest_le n, ?_, ?_⟩
  · by_cases h : Nat.findGreatest (fun j : Nat => (j : ℝ) / (n + 1) ≤ x) n = 0
    · exact .inl h
    · exact .inr (Nat.findGreatest_of_ne_zero rfl h)
  · by_cases h : Nat.findGreatest (fun j : Nat => (j : ℝ) / (n + 1) ≤ x) n = n
    · exact .inl h
    · right
      have h1 := Nat.findGreatest_le (P := fun j : Nat => (j : ℝ) / (n + 1) ≤ x) n
      have := Nat.findGreatest_is_greatest (P := fun j : Nat => (j : ℝ) / (n + 1) ≤ x) (n := n)
        (k := Nat.findGreatest (fun j : Nat => (j : ℝ) / (n + 1) ≤ x) n + 1) (Nat.lt_succ_self _) (by omega)
      push_cast at this
      exact not_le.1 this

theorem decompBin_same {n b : Nat} {x y : ℝ} (hb : b ≤ n) (h : InDecompBin n b x) : sameBin n x y ↔ InDecompBin n b y := by
  constructor
  · intro hs
    constructor
    · rcases h.1 with h1 | h1
      · exact .inl h1
      · by_cases h0 : b = 0
        · exact .inl h0
        · exact .inr ((hs b (by omega) hb).1 h1)
    · rcases h.2 with h1 | h1
      · exact .inl h1
      · by_cases h0 : b = n
        · exact .inl h0
        · have := hs (b + 1) (by omega) (by omega)
          push_cast at this
          exact .inr (not_le.1 fun h' => (not_le.2 h1) (this.2 h'))
  · intro hy j hj1 hj
    have hpos : (0 : ℝ) ≤ (n : ℝ) + 1 := by positivity
    by_cases hjb : j ≤ b
    · have h1 : (j : ℝ) / (n + 1) ≤ (b : ℝ) / (n + 1) := div_le_div_of_nonneg_right (by exact_mod_cast hjb) hpos
      exact ⟨fun _ => h1.trans (hy.1.resolve_left (by omega)), fun _ => h1.trans (h.1.resolve_left (by omega))⟩
    · have h1 : ((b : ℝ) + 1) / (n + 1) ≤ (j : ℝ) / (n + 1) := div_le_div_of_nonneg_right (by exact_mod_cast (by omega : b + 1 ≤ j)) hpos
      have h2 := h.2.resolve_left (by omega)
      have h3 := hy.2.resolve_left (by omega)
      exact ⟨fun h' => by linarith, fun h' => by linarith⟩

theorem avg_finsetSum {α ι : Type} (L : List α) (s : Finset ι) (f : ι → α → ℝ) :
    avg (L.map fun x => ∑ b ∈ s, f b x) = ∑ b ∈ s, avg (L.map (f b)) := by
  simp only [avg, List.length_map, ← Finset.sum_div]
  congr 1
  induction L with
  | nil => simp
  | cons x L ih => simp only [List.map_cons, List.sum_cons, ih, Finset.sum_add_distrib]

theorem avg_mul_const {α : Type} (L : List α) (f : α → ℝ) (a : ℝ) : avg (L.map fun x => f x * a) = avg (L.map f) * a := by
  simp only [avg, List.length_map, List.sum_map_mul_right]
  ring

open Classical in
/-- averages of what the bins say, bin by bin -/
theorem avg_bins (n : Nat) (Z : List (ℝ × ℝ)) (h : List (ℝ × ℝ) → ℝ) :
    avg (Z.map fun p => h (mates n Z p)) = ∑ b ∈ Finset.range (n + 1),
      avg (Z.map fun p => (indicator (InDecompBin n b p.1) : ℝ)) * h (Z.filter fun p => decide (InDecompBin n b p.1)) := by
  have e : ∀ p : ℝ × ℝ, h (mates n Z p) = ∑ b ∈ Finset.range (n + 1),
      (indicator (InDecompBin n b p.1) : ℝ) * h (Z.filter fun q => decide (InDecompBin n b q.1)) := by
    intro p
    obtain ⟨b, hb, hp⟩ := decompBin_exists n p.1
    rw [Finset.sum_eq_single_of_mem b (Finset.mem_range.2 (by omega))]
    · rw [indicator, if_pos hp, one_mul]
      congr 1
      unfold mates
      refine List.filter_congr fun q _ => ?_
      exact decide_eq_decide.2 (decompBin_same hb hp)
    · intro c hc hcb
      rw [indicator, if_neg fun hc' => hcb (decompBin_unique (by have := Finset.mem_range.1 hc; omega) hb hc' hp), zero_mul]
  simp only [e, avg_finsetSum, avg_mul_const]

theorem rel_bins (n : Nat) (Z : List (ℝ × ℝ)) : specRel n Z = ∑ b ∈ Finset.range (n + 1),
    avg (Z.map fun p => (indicator (InDecompBin n b p.1) : ℝ) * (p.1 - p.2)) ^ 2 /
      avg (Z.map fun p => (indicator (InDecompBin n b p.1) : ℝ)) := by
  classical
  have := avg_bins n Z fun l => (avg (l.map Prod.fst) - avg (l.map Prod.snd)) ^ 2
  unfold specRel
  simp only [binF, binO]
  rw [this]
  refine Finset.sum_congr rfl fun b _ => ?_
  have hs : avg (Z.map fun p => (indicator (InDecompBin n b p.1) : ℝ) * (p.1 - p.2)) =
      avg (Z.map fun p => (indicator (InDecompBin n b p.1) : ℝ) * p.1) -
        avg (Z.map fun p => (indicator (InDecompBin n b p.1) : ℝ) * p.2) := by
    simp only [avg, List.length_map, mul_sub, ← sub_div]
    congr 1
    clear this
    induction Z with
    | nil => simp
    | cons p Z ih =>
      simp only [List.map_cons, List.sum_cons, ih]
      ring
  rw [avg_part Z (fun p => InDecompBin n b p.1), avg_part Z (fun p => InDecompBin n b p.1), hs]
  by_cases h : avg (Z.map fun p => (indicator (InDecompBin n b p.1) : ℝ)) = 0
  · rw [h]; simp
  · field_simp

theorem res_bins (n : Nat) (Z : List (ℝ × ℝ)) : specRes n Z = ∑ b ∈ Finset.range (n + 1),
    (avg (Z.map fun p => (indicator (InDecompBin n b p.1) : ℝ) * p.2) -
      avg (Z.map fun p => (indicator (InDecompBin n b p.1) : ℝ)) * avg (Z.map Prod.snd)) ^ 2 /
      avg (Z.map fun p => (indicator (InDecompBin n b p.1) : ℝ)) := by
  classical
  have := avg_bins n Z fun l => (avg (l.map Prod.snd) - avg (Z.map Prod.snd)) ^ 2
  unfold specRes
  simp only [binO]
  rw [this]
  refine Finset.sum_congr rfl fun b _ => ?_
  rw [avg_part Z (fun p => InDecompBin n b p.1)]
  by_cases h : avg (Z.map fun p => (indicator (InDecompBin n b p.1) : ℝ)) = 0
  · rw [h]; simp
  · field_simp

theorem avg_nonneg_of {α : Type} {L : List α} {f : α → ℝ} (h : ∀ x ∈ L, 0 ≤ f x) : 0 ≤ avg (L.map f) := by
  refine div_nonneg (List.sum_nonneg fun x hx => ?_) (Nat.cast_nonneg _)
  obtain ⟨i, hi, rfl⟩ := List.mem_map.1 hx
  exact h i hi

theorem avg_le_one_of {α : Type} {L : List α} {f : α → ℝ} (h : ∀ x ∈ L, f x ≤ 1) : avg (L.map f) ≤ 1 := by
  refine (avg_le_avg h).trans ?_
  simp only [avg, List.length_replicate, List.map_const', List.sum_replicate, nsmul_eq_mul, mul_one]
  exact div_self_le_one (L.length : ℝ)

theorem abs_avg_le_of {α : Type} {L : List α} {f g : α → ℝ} (h : ∀ x ∈ L, |f x| ≤ g x) : |avg (L.map f)| ≤ avg (L.map g) := by
  refine (abs_avg_le _).trans ?_
  rw [List.map_map]
  exact avg_le_avg h

theorem indicator_unit (p : Prop) : 0 ≤ (indicator p : ℝ) ∧ (indicator p : ℝ) ≤ 1 := by
  classical
  unfold indicator
  split_ifs <;> norm_num

theorem measurable_decompBin (n b : Nat) : MeasurableSet {p : ℝ × ℝ | InDecompBin n b p.1} := by
  unfold InDecompBin
  refine MeasurableSet.inter ?_ ?_
  · exact (MeasurableSet.const (b = 0)).union (measurableSet_le measurable_const measurable_fst)
  · exact (MeasurableSet.const (b = n)).union (measurableSet_lt measurable_fst measurable_const)

/-- reliability, resolution and uncertainty in the long run -/
theorem settles_decomp (m : Nat) {R : Nat → Ω → ℝ × ℝ} (h : SameDays P R)
    (hR : ∀ d ω, (0 ≤ (R d ω).1 ∧ (R d ω).1 ≤ 1) ∧ 0 ≤ (R d ω).2 ∧ (R d ω).2 ≤ 1) :
    let B := fun b => {ω | InDecompBin m b (R 0 ω).1}
    let q := ∫ ω, (R 0 ω).2 ∂P
    Settles P (fun n ω => specRel m ((List.range (n + 1)).map fun d => R d ω))
      (∑ b ∈ Finset.range (m + 1), (∫ ω in B b, ((R 0 ω).1 - (R 0 ω).2) ∂P) ^ 2 / P.real (B b)) ∧
    Settles P (fun n ω => specRes m ((List.range (n + 1)).map fun d => R d ω))
      (∑ b ∈ Finset.range (m + 1), (∫ ω in B b, (R 0 ω).2 ∂P - P.real (B b) * q) ^ 2 / P.real (B b)) ∧
    Settles P (fun n ω => specUnc ((List.range (n + 1)).map fun d => R d ω)) (q * (1 - q)) := by
  intro B q
  have i1 : Integrable (fun ω => (R 0 ω).1) P := Integrable.of_bound (C := 1)
    (measurable_fst.comp (h.meas 0)).aestronglyMeasurable (.of_forall fun ω => by
      rw [Real.norm_of_nonneg (hR 0 ω).1.1]; exact (hR 0 ω).1.2)
  have i2 : Integrable (fun ω => (R 0 ω).2) P := Integrable.of_bound (C := 1)
    (measurable_snd.comp (h.meas 0)).aestronglyMeasurable (.of_forall fun ω => by
      rw [Real.norm_of_nonneg (hR 0 ω).2.1]; exact (hR 0 ω).2.2)
  have hq : Settles P (fun n ω => avg ((List.range (n + 1)).map fun d => (R d ω).2)) q := settles_avg h measurable_snd i2
  have hf := fun b => settles_share h (measurable_decompBin m b)
  have hd := fun b => settles_part h (measurable_decompBin m b) (g := fun p => p.1 - p.2) (by fun_prop) (i1.sub i2)
  have ho := fun b => settles_part h (measurable_decompBin m b) (g := fun p => p.2) (by fun_prop) i2
  simp only [Set.mem_ofPred_eq] at hf hd ho
  have ind : ∀ n ω b, 0 ≤ avg ((List.range (n + 1)).map fun d => (indicator (InDecompBin m b (R d ω).1) : ℝ)) :=
    fun n ω b => avg_nonneg_of fun _ _ => (indicator_unit _).1
  refine ⟨?_, ?_, ?_⟩
  · filter_upwards [ae_all_iff.2 hf, ae_all_iff.2 hd] with ω h1 h2
    simp only [rel_bins, List.map_map, Function.comp_def]
    refine tendsto_finsetSum _ fun b _ => tendsto_term (fun n => ?_) (h2 b) (h1 b)
    refine abs_avg_le_of fun d _ => ?_
    have hb := indicator_unit (InDecompBin m b (R d ω).1)
    have := hR d ω
    rw [abs_mul, abs_of_nonneg hb.1]
    exact mul_le_of_le_one_right hb.1 (abs_le.2 ⟨by linarith, by linarith⟩)
  · filter_upwards [ae_all_iff.2 hf, ae_all_iff.2 ho, hq] with ω h1 h2 h3
    simp only [res_bins, List.map_map, Function.comp_def]
    refine tendsto_finsetSum _ fun b _ => tendsto_term (fun n => ?_) ((h2 b).sub ((h1 b).mul h3)) (h1 b)
    have a1 := ind n ω b
    have a2 : avg ((List.range (n + 1)).map fun d => (indicator (InDecompBin m b (R d ω).1) : ℝ) * (R d ω).2) ≤
        avg ((List.range (n + 1)).map fun d => (indicator (InDecompBin m b (R d ω).1) : ℝ)) :=
      avg_le_avg fun d _ => mul_le_of_le_one_right (indicator_unit _).1 (hR d ω).2.2
    have a3 : 0 ≤ avg ((List.range (n + 1)).map fun d => (indicator (InDecompBin m b (R d ω).1) : ℝ) * (R d ω).2) :=
      avg_nonneg_of fun d _ => mul_nonneg (indicator_unit _).1 (hR d ω).2.1
    have a4 : 0 ≤ avg ((List.range (n + 1)).map fun d => (R d ω).2) := avg_nonneg_of fun d _ => (hR d ω).2.1
    have a5 : avg ((List.range (n + 1)).map fun d => (R d ω).2) ≤ 1 := avg_le_one_of fun d _ => (hR d ω).2.2
    have a6 := mul_nonneg a1 a4
    have a7 := mul_le_of_le_one_right a1 a5
    exact abs_le.2 ⟨by linarith, by linarith⟩
  · filter_upwards [hq] with ω h3
    simp only [specUnc, List.map_map, Function.comp_def]
    exact h3.mul (tendsto_const_nhds.sub h3)

/-! ### Correlations -/

theorem codev_avg {α : Type} (g h : α → ℝ) {L : List α} (hL : L ≠ []) :
    codev g h L = L.length * (avg (L.map fun x => g x * h x) - avg (L.map g) * avg (L.map h)) := by
  have hn : (L.length : ℝ) ≠ 0 := by exact_mod_cast (List.length_pos_iff.2 hL).ne'
  have e : ∀ a b : ℝ, (L.map fun p => (g p - a) * (h p - b)).sum =
      (L.map fun p => g p * h p).sum - b * (L.map g).sum - a * (L.map h).sum + L.length * (a * b) := by
    intro a b
    clear hL hn
    induction L with
    | nil => simp
    | cons x L ih =>
      simp only [List.map_cons, List.sum_cons, ih, List.length_cons]
      push_cast
      ring
  unfold codev
  rw [e]
  simp only [avg, List.length_map]
  field_simp
  ring

/-- the correlation of pairs whose series are not constant -/
theorem pearson_eq {Z : List (ℝ × ℝ)} {r : ℝ} (h : IsPearson Z r) (hx : 0 < codev Prod.fst Prod.fst Z)
    (hy : 0 < codev Prod.snd Prod.snd Z) :
    r = codev Prod.fst Prod.snd Z / Real.sqrt (codev Prod.fst Prod.fst Z * codev Prod.snd Prod.snd Z) := by
  have hxy := mul_pos hx hy
  have hs := Real.sqrt_pos.2 hxy
  rw [eq_div_iff hs.ne']
  have hsq := Real.sq_sqrt hxy.le
  have h1 : (r * Real.sqrt (codev Prod.fst Prod.fst Z * codev Prod.snd Prod.snd Z)) ^ 2 = codev Prod.fst Prod.snd Z ^ 2 := by
    rw [mul_pow, hsq]; exact h.1
  rcases sq_eq_sq_iff_eq_or_eq_neg.1 h1 with e | e
  · exact e
  · have h2 := h.2
    have h3 : 0 ≤ (r * Real.sqrt (codev Prod.fst Prod.fst Z * codev Prod.snd Prod.snd Z)) * codev Prod.fst Prod.snd Z := by
      have := mul_nonneg h2 hs.le
      linarith
    rw [e] at h3 ⊢
    have : codev Prod.fst Prod.snd Z = 0 := by nlinarith [sq_nonneg (codev Prod.fst Prod.snd Z)]
    rw [this]; simp

end Lemmas
