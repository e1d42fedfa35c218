import Verif.Lemmas.Honest
import Verif.Lemmas.PsGaussian
import Verif.Lemmas.GammaDist
import Mathlib.Analysis.SpecialFunctions.Log.Deriv

/-! The families of distributions that the verifiers score: their parameters can be told from the distribution. -/

namespace Lemmas
open Spec MeasureTheory Set Filter Topology

theorem Phi_nonneg (x : ℝ) : 0 ≤ Phi x := setIntegral_nonneg measurableSet_Iic fun t _ => (phi_pos t).le

theorem unit_normal (mu sigma : ℝ) : UnitFn (normalCdf mu sigma) := by
  refine ⟨?_, fun x => Phi_nonneg _, fun x => (Phi_lt_one _).le⟩
  exact continuous_Phi.measurable.comp ((measurable_id.sub_const mu).div_const sigma)

theorem continuous_normalCdf (mu sigma : ℝ) : Continuous (normalCdf mu sigma) :=
  continuous_Phi.comp ((continuous_id.sub continuous_const).div_const sigma)

theorem normal_inj {m s m' s' : ℝ} (hs : 0 < s) (hs' : 0 < s') (h : ∀ x, normalCdf m s x = normalCdf m' s' x) :
    m = m' ∧ s = s' := by
  have key : ∀ x, (x - m) / s = (x - m') / s' := fun x => strictMono_Phi.injective (h x)
  have h1 := key m
  rw [sub_self, zero_div, eq_comm, div_eq_zero_iff, or_iff_left hs'.ne', sub_eq_zero] at h1
  subst h1
  have h2 := key (m + 1)
  rw [add_sub_cancel_left, div_eq_div_iff hs.ne' hs'.ne'] at h2
  exact ⟨rfl, by linarith⟩

/-! ### truncated at zero -/

theorem trunc_denom (mu sigma l : ℝ) : 0 < 1 - Phi ((l - mu) / sigma) := by linarith [Phi_lt_one ((l - mu) / sigma)]

theorem unit_trunc (mu : ℝ) {sigma : ℝ} (hs : 0 < sigma) (l : ℝ) : UnitFn (truncNormalCdf mu sigma l) := by
  have hd := trunc_denom mu sigma l
  refine ⟨?_, fun x => ?_, fun x => ?_⟩
  · unfold truncNormalCdf
    refine Measurable.ite measurableSet_Iio measurable_const ?_
    exact ((continuous_Phi.measurable.comp ((measurable_id.sub_const mu).div_const sigma)).sub_const _).div_const _
  · unfold truncNormalCdf
    split
    · exact le_refl 0
    · rename_i hx
      refine div_nonneg (sub_nonneg.2 (strictMono_Phi.monotone ?_)) hd.le
      rw [div_le_div_iff_of_pos_right hs]; linarith [not_lt.1 hx]
  · unfold truncNormalCdf
    split
    · exact zero_le_one
    · rw [div_le_one hd]
      linarith [Phi_lt_one ((x - mu) / sigma)]

theorem hasDerivAt_trunc (mu sigma : ℝ) {l x : ℝ} (hx : l < x) :
    HasDerivAt (truncNormalCdf mu sigma l) (phi ((x - mu) / sigma) / sigma / (1 - Phi ((l - mu) / sigma))) x := by
  have h1 : HasDerivAt (fun x : ℝ => (x - mu) / sigma) (1 / sigma) x := ((hasDerivAt_id x).sub_const mu).div_const sigma
  have h2 := (((hasDerivAt_Phi ((x - mu) / sigma)).comp x h1).sub_const (Phi ((l - mu) / sigma))).div_const
    (1 - Phi ((l - mu) / sigma))
  have h3 : HasDerivAt (fun x => (Phi ((x - mu) / sigma) - Phi ((l - mu) / sigma)) / (1 - Phi ((l - mu) / sigma)))
      (phi ((x - mu) / sigma) / sigma / (1 - Phi ((l - mu) / sigma))) x := by
    refine h2.congr_deriv ?_
    ring
  refine h3.congr_of_eventuallyEq ?_
  filter_upwards [lt_mem_nhds hx] with z hz
  unfold truncNormalCdf
  rw [if_neg (not_lt.2 (le_of_lt hz))]

/-- a polynomial that vanishes at three points -/
theorem quad_zero {a b c : ℝ} (h : ∀ x > 0, a * x ^ 2 + b * x + c = 0) : a = 0 ∧ b = 0 ∧ c = 0 := by
  have h1 := h 1 one_pos
  have h2 := h 2 two_pos
  have h3 := h 3 three_pos
  refine ⟨?_, ?_, ?_⟩ <;> nlinarith

theorem trunc_inj {m s m' s' : ℝ} (hs : 0 < s) (hs' : 0 < s')
    (h : ∀ x > 0, truncNormalCdf m s 0 x = truncNormalCdf m' s' 0 x) : m = m' ∧ s = s' := by
  have hd := trunc_denom m s 0
  have hd' := trunc_denom m' s' 0
  set D := 1 - Phi ((0 - m) / s) with hD
  set D' := 1 - Phi ((0 - m') / s') with hD'
  have hpi : 0 < √(2 * Real.pi) := by have := Real.pi_pos; positivity
  have key : ∀ x > 0, -((x - m) / s) ^ 2 / 2 - Real.log (√(2 * Real.pi) * s * D) =
      -((x - m') / s') ^ 2 / 2 - Real.log (√(2 * Real.pi) * s' * D') := by
    intro x hx
    have e1 := hasDerivAt_trunc m s hx
    have e2 := hasDerivAt_trunc m' s' hx
    have e3 : truncNormalCdf m s 0 =ᶠ[𝓝 x] truncNormalCdf m' s' 0 := by
      filter_upwards [lt_mem_nhds hx] with z hz using h z hz
    have e4 := e1.unique (e2.congr_of_eventuallyEq e3)
    unfold phi at e4
    rw [div_div, div_div, div_div, div_div, ← mul_assoc, ← mul_assoc] at e4
    have e5 := congrArg Real.log e4
    rw [Real.log_div (Real.exp_pos _).ne' (by positivity), Real.log_div (Real.exp_pos _).ne' (by positivity),
      Real.log_exp, Real.log_exp] at e5
    exact e5
  have hq := quad_zero (a := 1 / s' ^ 2 - 1 / s ^ 2) (b := 2 * (m / s ^ 2 - m' / s' ^ 2))
    (c := m' ^ 2 / s' ^ 2 - m ^ 2 / s ^ 2 + 2 * (Real.log (√(2 * Real.pi) * s' * D') - Real.log (√(2 * Real.pi) * s * D)))
    (fun x hx => by
      have := key x hx
      rw [div_pow, div_pow] at this
      have e1 : (x - m) ^ 2 / s ^ 2 = 1 / s ^ 2 * x ^ 2 - 2 * (m / s ^ 2) * x + m ^ 2 / s ^ 2 := by ring
      have e2 : (x - m') ^ 2 / s' ^ 2 = 1 / s' ^ 2 * x ^ 2 - 2 * (m' / s' ^ 2) * x + m' ^ 2 / s' ^ 2 := by ring
      rw [e1, e2] at this
      linarith)
  obtain ⟨h1, h2, -⟩ := hq
  have hss : s = s' := by
    have : s ^ 2 = s' ^ 2 := by
      have h3 : 1 / s' ^ 2 = 1 / s ^ 2 := by linarith
      rw [div_eq_div_iff (by positivity) (by positivity)] at h3
      linarith
    exact (sq_eq_sq₀ hs.le hs'.le).1 this
  subst hss
  refine ⟨?_, rfl⟩
  have h3 : m / s ^ 2 = m' / s ^ 2 := by linarith
  rwa [div_left_inj' (by positivity)] at h3

/-! ### gamma censored at zero -/

theorem gammaCdf_nonneg {k : ℝ} (hk : 0 < k) (x : ℝ) : 0 ≤ gammaCdf k x :=
  setIntegral_nonneg measurableSet_Iic fun t _ => gammaPdf_nonneg hk t

theorem unit_gamma {mu sigma : ℝ} (hm : 0 < mu) (hs : 0 < sigma) (shift : ℝ) : UnitFn (censoredGammaCdf mu sigma shift) := by
  have hk : 0 < (mu / sigma) ^ 2 := by positivity
  refine ⟨?_, fun x => ?_, fun x => ?_⟩
  · unfold censoredGammaCdf
    refine Measurable.ite measurableSet_Iio measurable_const ?_
    exact (continuous_gammaCdf hk).measurable.comp ((measurable_id.sub_const shift).div_const _)
  · unfold censoredGammaCdf
    split
    · exact le_refl 0
    · exact gammaCdf_nonneg hk _
  · unfold censoredGammaCdf
    split
    · exact zero_le_one
    · exact gammaCdf_le_one hk _

theorem continuousAt_gamma {mu sigma : ℝ} (hm : 0 < mu) (hs : 0 < sigma) (shift : ℝ) {x : ℝ} (hx : 0 < x) :
    ContinuousAt (censoredGammaCdf mu sigma shift) x := by
  have hk : 0 < (mu / sigma) ^ 2 := by positivity
  have hc : Continuous fun x => gammaCdf ((mu / sigma) ^ 2) ((x - shift) / (sigma ^ 2 / mu)) :=
    (continuous_gammaCdf hk).comp ((continuous_id.sub continuous_const).div_const _)
  refine hc.continuousAt.congr ?_
  filter_upwards [lt_mem_nhds hx] with z hz
  unfold censoredGammaCdf
  rw [if_neg (not_lt.2 (le_of_lt hz))]

theorem gammaCdf_strictMonoOn {k : ℝ} (hk : 0 < k) : StrictMonoOn (gammaCdf k) (Ioi 0) := by
  refine strictMonoOn_of_deriv_pos (convex_Ioi 0) (continuous_gammaCdf hk).continuousOn fun x hx => ?_
  rw [interior_Ioi] at hx
  have hx' : 0 < x := hx
  rw [(hasDerivAt_gammaCdf hk hx').deriv, gammaPdf_of_pos hx']
  have := Real.Gamma_pos_of_pos hk
  positivity

/-- the logarithm of the density, up to a constant -/
theorem log_gammaPdf {k th d x : ℝ} (hk : 0 < k) (ht : 0 < th) (hx : d < x) :
    Real.log (gammaPdf k ((x - d) / th) / th) =
      (k - 1) * Real.log (x - d) - (x - d) / th - ((k - 1) * Real.log th + Real.log (Real.Gamma k) + Real.log th) := by
  have hxd : 0 < x - d := by linarith
  have hz : 0 < (x - d) / th := by positivity
  have hG := Real.Gamma_pos_of_pos hk
  have hr : 0 < ((x - d) / th) ^ (k - 1) := Real.rpow_pos_of_pos hz _
  rw [gammaPdf_of_pos hz, Real.log_div (by positivity) ht.ne', Real.log_div (by positivity) hG.ne',
    Real.log_mul hr.ne' (Real.exp_pos _).ne', Real.log_exp, Real.log_rpow hz, Real.log_div hxd.ne' ht.ne']
  ring

/-- shape, scale and position of a gamma distribution can be told from its far tail -/
theorem gamma_tail_inj {k th d k' th' d' : ℝ} (B : ℝ) (hk : 0 < k) (ht : 0 < th) (hk' : 0 < k') (ht' : 0 < th')
    (h : ∀ x > B, gammaCdf k ((x - d) / th) = gammaCdf k' ((x - d') / th')) : k = k' ∧ th = th' ∧ d = d' := by
  set M := max B (max d d') with hM
  have hB : ∀ x > M, B < x ∧ d < x ∧ d' < x := fun x hx =>
    ⟨(le_max_left _ _).trans_lt hx, ((le_max_left _ _).trans (le_max_right _ _)).trans_lt hx,
      ((le_max_right _ _).trans (le_max_right _ _)).trans_lt hx⟩
  have hder : ∀ {k th d x : ℝ}, 0 < k → 0 < th → d < x →
      HasDerivAt (fun x => gammaCdf k ((x - d) / th)) (gammaPdf k ((x - d) / th) / th) x := by
    intro k th d x hk ht hx
    have h1 : HasDerivAt (fun x : ℝ => (x - d) / th) (1 / th) x := ((hasDerivAt_id x).sub_const d).div_const th
    have h2 := (hasDerivAt_gammaCdf hk (show 0 < (x - d) / th from div_pos (by linarith) ht)).comp x h1
    refine h2.congr_deriv ?_
    ring
  -- equal densities
  have hden : ∀ x > M, gammaPdf k ((x - d) / th) / th = gammaPdf k' ((x - d') / th') / th' := by
    intro x hx
    obtain ⟨b1, b2, b3⟩ := hB x hx
    refine (hder hk ht b2).unique ((hder hk' ht' b3).congr_of_eventuallyEq ?_)
    filter_upwards [lt_mem_nhds b1] with z hz using h z hz
  -- equal derivatives of the logarithms
  have hlog : ∀ {k th d C x : ℝ}, d < x →
      HasDerivAt (fun x => (k - 1) * Real.log (x - d) - (x - d) / th - C) ((k - 1) / (x - d) - 1 / th) x := by
    intro k th d C x hx
    have h0 : x - d ≠ 0 := by linarith [hx] |> ne_of_gt
    have h1 : HasDerivAt (fun x : ℝ => x - d) 1 x := (hasDerivAt_id x).sub_const d
    have h2 := ((((h1.log h0).const_mul (k - 1)).sub (h1.div_const th)).sub_const C)
    refine h2.congr_deriv ?_
    ring
  have heq : ∀ x > M, (k - 1) / (x - d) - 1 / th = (k' - 1) / (x - d') - 1 / th' := by
    intro x hx
    obtain ⟨-, b2, b3⟩ := hB x hx
    refine (hlog (th := th) (C := (k - 1) * Real.log th + Real.log (Real.Gamma k) + Real.log th) b2).unique
      ((hlog (th := th') (C := (k' - 1) * Real.log th' + Real.log (Real.Gamma k') + Real.log th') b3).congr_of_eventuallyEq ?_)
    filter_upwards [lt_mem_nhds hx] with z hz
    obtain ⟨-, c2, c3⟩ := hB z hz
    rw [← log_gammaPdf hk ht c2, ← log_gammaPdf hk' ht' c3, hden z hz]
  -- the scale from the limit
  have hlim : ∀ k d th : ℝ, Tendsto (fun x => (k - 1) / (x - d) - 1 / th) atTop (𝓝 (-(1 / th))) := by
    intro k d th
    have h1 : Tendsto (fun x : ℝ => x - d) atTop atTop := tendsto_atTop_add_const_right _ (-d) tendsto_id
    have h2 := (tendsto_const_nhds (x := k - 1)).div_atTop h1
    have h3 := h2.sub_const (1 / th)
    simpa using h3
  have hth : th = th' := by
    have h1 := hlim k d th
    have h2 := hlim k' d' th'
    have h3 : (fun x => (k - 1) / (x - d) - 1 / th) =ᶠ[atTop] fun x => (k' - 1) / (x - d') - 1 / th' := by
      filter_upwards [eventually_gt_atTop M] with x hx using heq x hx
    have h4 := tendsto_nhds_unique (h1.congr' h3) h2
    have h5 : 1 / th = 1 / th' := by linarith
    rw [div_eq_div_iff ht.ne' ht'.ne'] at h5
    linarith
  subst hth
  have hlin : ∀ x > M, (k - 1) * (x - d') = (k' - 1) * (x - d) := by
    intro x hx
    obtain ⟨-, b2, b3⟩ := hB x hx
    have := heq x hx
    have h1 : (k - 1) / (x - d) = (k' - 1) / (x - d') := by linarith
    rwa [div_eq_div_iff (by linarith [b2] |> ne_of_gt) (by linarith [b3] |> ne_of_gt)] at h1
  have hkk : k = k' := by
    have h1 := hlin (M + 1) (by linarith)
    have h2 := hlin (M + 2) (by linarith)
    nlinarith
  subst hkk
  refine ⟨rfl, rfl, ?_⟩
  obtain ⟨b1, b2, b3⟩ := hB (M + 1) (by linarith)
  have := (gammaCdf_strictMonoOn hk).injOn (show 0 < (M + 1 - d) / th from div_pos (by linarith) ht)
    (show 0 < (M + 1 - d') / th from div_pos (by linarith) ht) (h (M + 1) b1)
  rw [div_left_inj' ht.ne'] at this
  linarith

theorem gamma_inj {m s d m' s' d' : ℝ} (hm : 0 < m) (hs : 0 < s) (hm' : 0 < m') (hs' : 0 < s')
    (h : ∀ x > 0, censoredGammaCdf m s d x = censoredGammaCdf m' s' d' x) : m = m' ∧ s = s' ∧ d = d' := by
  obtain ⟨h1, h2, h3⟩ := gamma_tail_inj (k := (m / s) ^ 2) (th := s ^ 2 / m) (d := d) (k' := (m' / s') ^ 2)
    (th' := s' ^ 2 / m') (d' := d') 0 (by positivity) (by positivity) (by positivity) (by positivity) fun x hx => by
      have := h x hx
      unfold censoredGammaCdf at this
      rwa [if_neg (not_lt.2 (le_of_lt hx)), if_neg (not_lt.2 (le_of_lt hx))] at this
  have e1 : (m / s) ^ 2 * (s ^ 2 / m) = m := by field_simp
  have e2 : (m' / s') ^ 2 * (s' ^ 2 / m') = m' := by field_simp
  have hmm : m = m' := by rw [← e1, ← e2, h1, h2]
  subst hmm
  refine ⟨rfl, ?_, h3⟩
  rw [div_left_inj' hm.ne'] at h2
  exact (sq_eq_sq₀ hs.le hs'.le).1 h2

end Lemmas
