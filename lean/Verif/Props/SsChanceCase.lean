import Verif.Props.SsChance
import Verif.Props.RelChanceCase
import Verif.Props.InPlace
import Verif.Props.Murphy
import Mathlib.Probability.Distributions.Gaussian.Real
import Mathlib.Probability.ConditionalProbability

/-! # Concrete cases for C123 -/

namespace Props
open Np NDArr Model Spec Lemmas MeasureTheory ProbabilityTheory

/-- roots and sorting as in the library -/
noncomputable def ssCfg : Cfg ℝ := { (caseCfg : Cfg ℝ) with sqrt := Real.sqrt, argsort := stableSort }

theorem stdNormal_gaussian : stdNormal = gaussianReal 0 1 := by
  rw [gaussianReal_of_var_ne_zero 0 one_ne_zero, stdNormal, dens]
  congr 1
  funext x
  rw [gaussianPDF, gaussianPDFReal_def, phi]
  congr 1
  simp only [NNReal.coe_one, mul_one, sub_zero]
  rw [div_eq_inv_mul]

theorem stdNormal_moments (m s : ℝ) : MemLp (fun ω => m + s * ω) 2 stdNormal ∧ ∫ ω, m + s * ω ∂stdNormal = m ∧
    ∫ ω, (m + s * ω - m) ^ 2 ∂stdNormal = s ^ 2 := by
  have h2 : MemLp (fun ω : ℝ => ω) 2 stdNormal := by
    rw [stdNormal_gaussian]
    exact memLp_id_gaussianReal' 2 (by simp)
  have hi : Integrable (fun ω : ℝ => ω) stdNormal := h2.integrable one_le_two
  have hm : ∫ ω, ω ∂stdNormal = 0 := by rw [stdNormal_gaussian, integral_id_gaussianReal]
  have hv : ∫ ω, ω ^ 2 ∂stdNormal = 1 := by
    have hv : Var[fun x ↦ x; gaussianReal 0 1] = ((1 : NNReal) : ℝ) := variance_fun_id_gaussianReal
    rw [variance_eq_integral (by fun_prop), integral_id_gaussianReal] at hv
    rw [stdNormal_gaussian]
    simpa using hv
  refine ⟨(memLp_const m).add (h2.const_mul s), ?_, ?_⟩
  · rw [integral_add (integrable_const m) (hi.const_mul s), integral_const_mul, hm]
    simp
  · have : ∀ ω : ℝ, (m + s * ω - m) ^ 2 = s ^ 2 * ω ^ 2 := fun ω => by ring
    simp only [this]
    rw [integral_const_mul, hv, mul_one]

/-- Two bins, normal observations with mean `a` and standard deviation 1 at the first position, announced mean 1: the first
point of the diagram is on the diagonal in the mean square exactly if `a` is 1. -/
example (a : ℝ) : ∃ o sp rm : ℝ → _, (∀ ω, ∃ w, construct (gaussPrims ssCfg (fnsPit 0) embBoth) noMids
      (probObj (pitX (gaussX false) false (a + 1 * ω) (3 + 2 * ω))) world0 = (.ok (o ω), w)) ∧
    (∀ ω, result .gaussian bothInfo (gaussPrims ssCfg (fnsPit 0) embBoth) noMids (.slot (.ss (.inr 2))) (unsaved (o ω)) world0 =
      .ok (some (.pair (sp ω) (rm ω)))) ∧
    ∃ R : ℝ → ℝ, (∀ ω, (sp ω).get [0] = some 1 ∧ (rm ω).get [0] = some (R ω)) ∧ ∫ ω, R ω ∂stdNormal ≤ Real.sqrt ((1 - a) ^ 2 + 1) ∧
      (∫ ω, R ω ^ 2 ∂stdNormal = 1 ↔ a = 1) := by
  have hb : ∀ ω : ℝ, ∃ o w, construct (gaussPrims ssCfg (fnsPit 0) embBoth) noMids
      (probObj (pitX (gaussX false) false (a + 1 * ω) (3 + 2 * ω))) world0 = (.ok o, w) := fun ω => ⟨_, _, rfl⟩
  choose o w h using hb
  obtain ⟨sp, rm, r1, r2⟩ := C123_gauss (I := bothInfo) (P := stdNormal) (sh := [2])
    (w1 := fun _ => world0) h (fun j l => (stableSort_spec j l).1) isSqrt_real
    (Y := fun i ω => if i = [0] then a + 1 * ω else 3 + 2 * ω) (μ := fun i => if i = [0] then a else 3)
    (v := fun i => if i = [0] then 1 ^ 2 else 2 ^ 2)
    { shape := fun _ => rfl
      value := fun i hi ω => by rcases two_positions hi with rfl | rfl <;> rfl
      memLp := fun i hi => by
        rcases two_positions hi with rfl | rfl
        · exact (stdNormal_moments a 1).1
        · exact (stdNormal_moments 3 2).1
      mean := fun i hi => by
        rcases two_positions hi with rfl | rfl
        · exact (stdNormal_moments a 1).2.1
        · exact (stdNormal_moments 3 2).2.1
      variance := fun i hi => by
        rcases two_positions hi with rfl | rfl
        · exact (stdNormal_moments a 1).2.2
        · exact (stdNormal_moments 3 2).2.2 }
    (mu := ⟨[2], [some 1, some 3], rfl⟩) (sigma := ⟨[2], [some 1, some 2], rfl⟩) (fun _ => ⟨rfl, rfl⟩) (fun _ => ⟨rfl, rfl⟩)
    (m := fun i => if i = [0] then 1 else 3) (sd := fun i => if i = [0] then 1 else 2)
    (fun i hi => by rcases two_positions hi with rfl | rfl <;> simp [NDArr.get, ravel])
    (nb := .inr 2) (nbins := 2) rfl (by simp [Printable, bothInfo]) two_ne_zero (fun _ => rfl)
    (av := .none) (fun _ => rfl) trivial (by decide) (by decide)
  obtain ⟨gs, g1, g2⟩ := r2 [] (by decide)
  have hf : fiberIdx [2] (nums [2].length (axesOf .none)) [] = [[0], [1]] := by decide
  rw [hf] at g1
  have hgs : gs = [[[0]], [[1]]] := by
    have hc := g1.count
    match gs, hc with
    | [x, y], _ =>
      have hl := g1.complete.length_eq
      simp only [List.flatten_cons, List.flatten_nil, List.append_nil, List.length_append, List.length_cons,
        List.length_nil] at hl
      have hx := List.length_pos_iff.2 (g1.filled x (by simp))
      have hy := List.length_pos_iff.2 (g1.filled y (by simp))
      obtain ⟨x0, rfl⟩ := List.length_eq_one_iff.1 (show x.length = 1 by omega)
      obtain ⟨y0, rfl⟩ := List.length_eq_one_iff.1 (show y.length = 1 by omega)
      have hp : [x0, y0].Perm [[0], [1]] := by simpa using g1.complete
      have ho := g1.ordered
      simp only [List.flatten_cons, List.flatten_nil, List.append_nil, List.map_cons, List.map_nil,
        List.cons_append, List.nil_append, List.pairwise_cons, List.mem_singleton, forall_eq] at ho
      have hx0 : x0 ∈ [[0], [1]] := hp.subset (by simp)
      have hnd : [x0, y0].Nodup := hp.nodup_iff.2 (by decide)
      have hy0 : y0 ∈ [[0], [1]] := hp.subset (by simp)
      simp only [List.mem_cons, List.not_mem_nil, or_false] at hx0 hy0
      rcases hx0 with rfl | rfl <;> rcases hy0 with rfl | rfl
      · simp at hnd
      · rfl
      · have := ho.1
        simp only [show ([1] : List Nat) = [0] ↔ False by decide, if_false, if_true] at this
        norm_num at this
      · simp at hnd
  subst hgs
  obtain ⟨S, R, s1, s2⟩ := g2 0 [[0]] rfl
  have hS : S = 1 := by
    have h1 := s2.spread.2
    have h0 := s2.spread.1
    simp [avg] at h1
    rcases h1 with h1 | h1
    · exact h1
    · linarith
  subst hS
  have e : avg (([[0]] : List (List Nat)).map fun i => ((if i = [0] then (1 : ℝ) else 3) - (if i = [0] then a else 3)) ^ 2 +
      (if i = [0] then 1 ^ 2 else 2 ^ 2)) = (1 - a) ^ 2 + 1 := by simp [avg]
  refine ⟨o, sp, rm, fun ω => ⟨w ω, h ω⟩, r1, R, s1, ?_, ?_⟩
  · have := s2.mean
    rwa [e] at this
  · rw [s2.mean_sq, e]
    constructor
    · intro hh
      have : (1 - a) ^ 2 = 0 := by linarith
      have := pow_eq_zero_iff (two_ne_zero) |>.1 this
      linarith
    · rintro rfl; norm_num

/-- the standard normal distribution above `b` -/
noncomputable def aboveNormal (b : ℝ) : Measure ℝ := stdNormal[|Set.Ici b]

theorem stdNormal_Iic (b : ℝ) : stdNormal.real (Set.Iic b) = Phi b := by
  rw [stdNormal, dens_law (fun x => (phi_pos x).le) integrable_phi]
  rfl

theorem stdNormal_Iio (b : ℝ) : stdNormal.real (Set.Iio b) = Phi b := by
  rw [← stdNormal_Iic b]
  have : NullSingletonClass stdNormal := by rw [stdNormal_gaussian]; exact nullSingletonClass_gaussianReal one_ne_zero
  exact measureReal_congr Iio_ae_eq_Iic

theorem stdNormal_Ici (b : ℝ) : stdNormal.real (Set.Ici b) = 1 - Phi b := by
  rw [← stdNormal_Iio b, ← probReal_compl_eq_one_sub measurableSet_Iio, Set.compl_Iio]

theorem aboveNormal_ne (b : ℝ) : stdNormal (Set.Ici b) ≠ 0 := by
  intro h
  have h1 := stdNormal_Ici b
  rw [measureReal_def, h, ENNReal.toReal_zero] at h1
  have := strictMono_Phi (lt_add_one b)
  have h2 : Phi (b + 1) ≤ 1 := by rw [← stdNormal_Iic]; exact measureReal_le_one
  linarith

instance (b : ℝ) : IsProbabilityMeasure (aboveNormal b) := cond_isProbabilityMeasure (aboveNormal_ne b)

theorem aboveNormal_law (m : ℝ) {s : ℝ} (hs : 0 < s) (x : ℝ) :
    (aboveNormal (-m / s)).real {ω | m + s * ω ≤ x} = gaussLaw true m s x := by
  have e : {ω | m + s * ω ≤ x} = Set.Iic ((x - m) / s) := by
    ext ω
    simp only [Set.mem_ofPred_eq, Set.mem_Iic]
    rw [le_div_iff₀ hs]
    constructor <;> intro h <;> linarith
  have hb : (0 - m) / s = -m / s := by rw [zero_sub]
  rw [e, aboveNormal, measureReal_def, cond_apply measurableSet_Ici, ENNReal.toReal_mul, ENNReal.toReal_inv, ← measureReal_def,
    ← measureReal_def, stdNormal_Ici]
  simp only [gaussLaw, if_true, truncNormalCdf, hb]
  split_ifs with hx
  · have : Set.Ici (-m / s) ∩ Set.Iic ((x - m) / s) = ∅ := by
      rw [Set.Ici_inter_Iic, Set.Icc_eq_empty]
      rw [not_le]
      exact (div_lt_div_iff_of_pos_right hs).2 (by linarith)
    rw [this]
    simp
  · have hle : -m / s ≤ (x - m) / s := (div_le_div_iff_of_pos_right hs).2 (by linarith [not_lt.1 hx])
    have : Set.Ici (-m / s) ∩ Set.Iic ((x - m) / s) = Set.Iic ((x - m) / s) \ Set.Iio (-m / s) := by
      ext y
      simp only [Set.mem_inter_iff, Set.mem_Ici, Set.mem_Iic, Set.mem_sdiff, Set.mem_Iio, not_lt]
      exact and_comm
    rw [this, measureReal_sdiff (Set.Iio_subset_Iic hle) measurableSet_Iio, stdNormal_Iic, stdNormal_Iio]
    exact (div_eq_inv_mul _ _).symm

theorem aboveNormal_memLp (b m s : ℝ) : MemLp (fun ω => m + s * ω) 2 (aboveNormal b) := by
  unfold aboveNormal ProbabilityTheory.cond
  exact ((stdNormal_moments m s).1.restrict _).smul_measure (ENNReal.inv_ne_top.2 (aboveNormal_ne b))

/-- **C123**, what fails: a verifier with `truncated=True`, `mu` -1 and `sigma` 1 at both positions, and observations that
have exactly the distribution it announces; the point of the spread-skill diagram is above the diagonal. -/
theorem C123_truncated_off_diagonal : ∃ (P : Measure ℝ) (_ : IsProbabilityMeasure P) (Y : ℝ → ℝ) (o sp rm : ℝ → _),
    (∀ x, P.real {ω | Y ω ≤ x} = gaussLaw true (-1) 1 x) ∧
    (∀ ω, ∃ w, construct (gaussPrims ssCfg (fnsPit 0) embBoth) noMids
      (probObj (pitX { (gaussX true : ProbX ℝ) with
        f := [("mu", ⟨[2], [some (-1), some (-1)], rfl⟩), ("sigma", ⟨[2], [some 1, some 1], rfl⟩)] } false (Y ω) (Y ω)))
      world0 = (.ok (o ω), w)) ∧
    (∀ ω, result .gaussian bothInfo (gaussPrims ssCfg (fnsPit 0) embBoth) noMids (.slot (.ss (.inr 1))) (unsaved (o ω)) world0 =
      .ok (some (.pair (sp ω) (rm ω)))) ∧
    ∃ (S : ℝ) (R : ℝ → ℝ), (∀ ω, (sp ω).get [0] = some S ∧ (rm ω).get [0] = some (R ω)) ∧ S ^ 2 < ∫ ω, R ω ^ 2 ∂P := by
  refine ⟨aboveNormal (-(-1) / 1), inferInstance, fun ω => -1 + 1 * ω, ?_⟩
  set P := aboveNormal (-(-1) / 1)
  have hb : ∀ ω : ℝ, ∃ o w, construct (gaussPrims ssCfg (fnsPit 0) embBoth) noMids
      (probObj (pitX { (gaussX true : ProbX ℝ) with
        f := [("mu", ⟨[2], [some (-1), some (-1)], rfl⟩), ("sigma", ⟨[2], [some 1, some 1], rfl⟩)] } false
          (-1 + 1 * ω) (-1 + 1 * ω))) world0 = (.ok o, w) := fun ω => ⟨_, _, rfl⟩
  choose o w h using hb
  have hlaw : ∀ x, P.real {ω | -1 + 1 * ω ≤ x} = gaussLaw true (-1) 1 x := aboveNormal_law (-1) one_pos
  have hL : MemLp (fun ω : ℝ => -1 + 1 * ω) 2 P := aboveNormal_memLp _ _ _
  obtain ⟨sp, rm, r1, r2⟩ := C123_gauss (I := bothInfo) (P := P) (sh := [2])
    (w1 := fun _ => world0) h (fun j l => (stableSort_spec j l).1) isSqrt_real
    (Y := fun _ ω => -1 + 1 * ω) (μ := fun _ => ∫ ω, -1 + 1 * ω ∂P)
    (v := fun _ => ∫ ω, (-1 + 1 * ω - ∫ ω, -1 + 1 * ω ∂P) ^ 2 ∂P)
    { shape := fun _ => rfl
      value := fun i hi ω => by rcases two_positions hi with rfl | rfl <;> rfl
      memLp := fun i _ => hL
      mean := fun i _ => rfl
      variance := fun i _ => rfl }
    (mu := ⟨[2], [some (-1), some (-1)], rfl⟩) (sigma := ⟨[2], [some 1, some 1], rfl⟩) (fun _ => ⟨rfl, rfl⟩)
    (fun _ => ⟨rfl, rfl⟩) (m := fun _ => -1) (sd := fun _ => 1)
    (fun i hi => by rcases two_positions hi with rfl | rfl <;> exact ⟨rfl, rfl⟩)
    (nb := .inr 1) (nbins := 1) rfl (by simp [Printable, bothInfo]) one_ne_zero (fun _ => rfl)
    (av := .none) (fun _ => rfl) trivial (by decide) (by decide)
  obtain ⟨gs, g1, g2⟩ := r2 [] (by decide)
  obtain ⟨g, rfl⟩ := List.length_eq_one_iff.1 g1.count
  obtain ⟨S, R, s1, s2⟩ := g2 0 g rfl
  exact ⟨o, sp, rm, hlaw, fun ω => ⟨w ω, h ω⟩, r1, S, R, s1, C123_truncated (Y := fun _ ω => -1 + 1 * ω)
    (g1.filled g (by simp)) (fun i _ => ⟨hL, rfl, rfl⟩) (fun _ _ => hlaw) (fun _ _ => ⟨one_pos, by norm_num⟩) s2⟩

end Props
