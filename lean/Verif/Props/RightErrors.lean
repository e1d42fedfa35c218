import Verif.Lemmas.TruncMoments
import Verif.Spec.RightErrors
import Verif.Props.SsChanceCase
import Verif.Props.Proper

/-!
# What `error()`, `sq_error()` and the spread-skill diagram say of exactly right forecasts: C128
-/

set_option linter.unusedSectionVars false

namespace Props
open Np NDArr Model Spec Lemmas MeasureTheory

variable {A : Type} {I : ArgInfo A} {c : Cfg ℝ} {F : ProbFns ℝ} {emb : A → Arg ℝ}
  {mids : FS (PyVal ℝ) → Model.Path → List (FS (PyVal ℝ))}
variable {Ω : Type} [MeasurableSpace Ω] {P : Measure Ω} [IsProbabilityMeasure P]
  {sh : List Nat} {Y : List Nat → Ω → ℝ} {G : List Nat → ℝ → ℝ}

theorem integral_above (b : ℝ) (g : ℝ → ℝ) : ∫ x, g x ∂(aboveNormal b) = (∫ x in Set.Ici b, phi x * g x) / (1 - Phi b) := by
  have h1 : stdNormal.restrict (Set.Ici b) = (volume.restrict (Set.Ici b)).withDensity fun x => ENNReal.ofReal (phi x) := by
    rw [stdNormal, dens, restrict_withDensity measurableSet_Ici]
  rw [aboveNormal, ProbabilityTheory.cond, integral_smul_measure, ENNReal.toReal_inv, ← measureReal_def, stdNormal_Ici, h1,
    integral_withDensity_eq_integral_toReal_smul continuous_phi.measurable.ennreal_ofReal
      (ae_of_all _ fun x => ENNReal.ofReal_lt_top), smul_eq_mul, inv_mul_eq_div]
  congr 1
  refine integral_congr_ae (ae_of_all _ fun x => ?_)
  simp only [ENNReal.toReal_ofReal (phi_pos x).le, smul_eq_mul]

theorem one_sub_Phi (x : ℝ) : 1 - Phi (-x) = Phi x := by
  rw [Phi_neg]; ring

theorem Phi_pos (x : ℝ) : 0 < Phi x := by
  rw [← one_sub_Phi]; linarith [Phi_lt_one (-x)]

theorem cutGain_pos (m s : ℝ) : 0 < cutGain true m s := by
  simp only [cutGain, if_true]
  exact div_pos (phi_pos _) (Phi_pos _)

/-- first two moments of the difference of `mu` and an observation with the announced distribution -/
theorem gauss_moments {Y : Ω → ℝ} (hY : Measurable Y) {tr : Bool} {m s : ℝ} (hs : 0 < s)
    (hl : ∀ x, P.real {ω | Y ω ≤ x} = gaussLaw tr m s x) :
    (Integrable (fun ω => m - Y ω) P ∧ ∫ ω, m - Y ω ∂P = - (s * cutGain tr m s)) ∧
    Integrable (fun ω => (m - Y ω) ^ 2) P ∧ ∫ ω, (m - Y ω) ^ 2 ∂P = s ^ 2 * (1 - m / s * cutGain tr m s) := by
  have hg1 : Measurable fun y : ℝ => m - y := by fun_prop
  have hg2 : Measurable fun y : ℝ => (m - y) ^ 2 := by fun_prop
  have hZ : Measurable fun ω : ℝ => m + s * ω := by fun_prop
  have e1 : ∀ ω : ℝ, m - (m + s * ω) = -s * ω := fun ω => by ring
  have e2 : ∀ ω : ℝ, (m - (m + s * ω)) ^ 2 = s ^ 2 * ω ^ 2 := fun ω => by ring
  cases tr with
  | false =>
    have hl' : ∀ x, P.real {ω | Y ω ≤ x} = stdNormal.real {ω | m + s * ω ≤ x} := fun x => by
      rw [hl, stdNormal_law m hs]; rfl
    obtain ⟨h1, h2, h3⟩ := stdNormal_moments m s
    have i1 : Integrable (fun ω => m - (m + s * ω)) stdNormal := (integrable_const m).sub (h1.integrable one_le_two)
    have e3 : ∀ ω : ℝ, (m - (m + s * ω)) ^ 2 = (m + s * ω - m) ^ 2 := fun ω => by ring
    have i2 : Integrable (fun ω => (m - (m + s * ω)) ^ 2) stdNormal := ((memLp_const m).sub h1).integrable_sq
    obtain ⟨a1, a2⟩ := mean_of_law hY hZ hl' hg1 i1
    obtain ⟨b1, b2⟩ := mean_of_law hY hZ hl' hg2 i2
    simp only [cutGain, Bool.false_eq_true, if_false, mul_zero, neg_zero, sub_zero, mul_one]
    refine ⟨⟨a1, ?_⟩, b1, ?_⟩
    · rw [a2, integral_sub (integrable_const m) (h1.integrable one_le_two), h2]; simp
    · rw [b2]; simp only [e3]; exact h3
  | true =>
    have hl' : ∀ x, P.real {ω | Y ω ≤ x} = (aboveNormal (-m / s)).real {ω | m + s * ω ≤ x} := fun x => by
      rw [hl, aboveNormal_law m hs]
    have h1 := aboveNormal_memLp (-m / s) m s
    have i1 : Integrable (fun ω => m - (m + s * ω)) (aboveNormal (-m / s)) :=
      (integrable_const m).sub (h1.integrable one_le_two)
    have i2 : Integrable (fun ω => (m - (m + s * ω)) ^ 2) (aboveNormal (-m / s)) := ((memLp_const m).sub h1).integrable_sq
    obtain ⟨a1, a2⟩ := mean_of_law hY hZ hl' hg1 i1
    obtain ⟨b1, b2⟩ := mean_of_law hY hZ hl' hg2 i2
    have hPhi : 1 - Phi (-m / s) = Phi (m / s) := by rw [neg_div]; exact one_sub_Phi _
    have hphi : phi (-m / s) = phi (m / s) := by rw [neg_div]; exact phi_neg _
    have hne := (Phi_pos (m / s)).ne'
    simp only [cutGain, if_true]
    refine ⟨⟨a1, ?_⟩, b1, ?_⟩
    · rw [a2]
      simp only [e1]
      rw [integral_const_mul, integral_above, integral_tail_mul, hPhi, hphi]
      ring
    · rw [b2]
      simp only [e2]
      rw [integral_const_mul, integral_above, integral_tail_sq, hPhi, hphi]
      field_simp
      ring

/-- `error()` and `sq_error()` at random observations, from the first two moments of the differences -/
theorem expected_errors {mu : NDArr (Fl ℝ)} {m : List Nat → ℝ} (hm : ∀ i, InB sh i → mu.get i = some (m i))
    {o : Ω → NDArr (Fl ℝ)} (d : Drawn P sh o Y G) {β κ : List Nat → ℝ}
    (hmo : ∀ i, InB sh i → (Integrable (fun ω => m i - Y i ω) P ∧ ∫ ω, m i - Y i ω ∂P = β i) ∧
      Integrable (fun ω => (m i - Y i ω) ^ 2) P ∧ ∫ ω, (m i - Y i ω) ^ 2 ∂P = κ i)
    {axs : List Nat} (hmu : mu.shape = sh) (h0 : 0 ∉ sh) {skip : Bool} {e q : Ω → NDArr (Fl ℝ)} {k : List Nat}
    (hk : InB (dropAxes axs sh) k)
    (he : ∀ ω, IsAvg skip ((pairsAt mu (o ω) axs k).map (both fun x y => x - y)) ((e ω).get k))
    (hq : ∀ ω, IsAvg skip ((pairsAt mu (o ω) axs k).map (both fun x y => (x - y) ^ 2)) ((q ω).get k)) :
    ∃ E Q : Ω → ℝ, (∀ ω, (e ω).get k = some (E ω) ∧ (q ω).get k = some (Q ω)) ∧ ExpectedErrors P E Q (fiberIdx sh axs k) β κ := by
  have hne := fiberIdx_ne h0 hk
  have hv : ∀ ω, ∀ i ∈ fiberIdx sh axs k, (mu.get i, (o ω).get i) = (some (m i), some (Y i ω)) := fun ω i hi => by
    have hi' := (mem_fiberIdx.1 hi).1
    rw [hm i hi', d.value i hi' ω]
  have h1 := mean_avg (P := P) (fiberIdx sh axs k) (g := fun i ω => m i - Y i ω) (e := β)
    fun i hi => (hmo i (mem_fiberIdx.1 hi).1).1
  have h2 := mean_avg (P := P) (fiberIdx sh axs k) (g := fun i ω => (m i - Y i ω) ^ 2) (e := κ)
    fun i hi => (hmo i (mem_fiberIdx.1 hi).1).2
  refine ⟨_, _, fun ω => ⟨?_, ?_⟩, ⟨h1.1, h1.2, h2.1, h2.2⟩⟩
  · have := he ω
    unfold pairsAt at this
    rw [hmu, List.map_map] at this
    exact isAvg_some' hne (fun i hi => by simp only [Function.comp]; rw [hv ω i hi]; rfl) this
  · have := hq ω
    unfold pairsAt at this
    rw [hmu, List.map_map] at this
    exact isAvg_some' hne (fun i hi => by simp only [Function.comp]; rw [hv ω i hi]; rfl) this

/-- **C128**, Gaussian class. The observations have exactly the distributions that the verifier announces. Then `error()` is
on average minus the distance by which the cut at zero moves the mean, and `sq_error()` is on average the variance before
the cut, corrected for the cut; `variance()` is the variance before the cut. -/
theorem C128_gauss {oi o : Ω → Obj (ProbX ℝ)} {w w' w1 : Ω → World (PyVal ℝ)}
    (h : ∀ ω, construct (gaussPrims c F emb) mids (oi ω) (w ω) = (.ok (o ω), w' ω)) {tr : Bool} {m sd : List Nat → ℝ}
    (d : Drawn P sh (fun ω => (oi ω).ext.o) Y fun i => gaussLaw tr (m i) (sd i))
    {mu sigma : NDArr (Fl ℝ)} (hmu : ∀ ω, HasPar (oi ω).ext "mu" mu) (hsg : ∀ ω, HasPar (oi ω).ext "sigma" sigma)
    (hv : ∀ i, InB sh i → mu.get i = some (m i) ∧ sigma.get i = some (sd i) ∧ 0 < sd i)
    {a : PyAxis} (ha : ∀ ω, (oi ω).avg = a) (hb : ∀ ω, (oi ω).boot = .none) (h0 : 0 ∉ sh)
    (hok : OptOK sh.length (axesOf a)) :
    ∃ e q v : Ω → NDArr (Fl ℝ),
      (∀ ω, result .gaussian I (gaussPrims c F emb) mids (.slot .error) (unsaved (o ω)) (w1 ω) = .ok (some (.num (e ω)))) ∧
      (∀ ω, result .gaussian I (gaussPrims c F emb) mids (.slot .sqError) (unsaved (o ω)) (w1 ω) = .ok (some (.num (q ω)))) ∧
      (∀ ω, result .gaussian I (gaussPrims c F emb) mids (.slot .variance) (unsaved (o ω)) (w1 ω) = .ok (some (.num (v ω)))) ∧
      (∀ ω i, InB sh i → (v ω).get i = some (sd i ^ 2)) ∧
      ∀ k, InB (dropAxes (nums sh.length (axesOf a)) sh) k → ∃ E Q : Ω → ℝ,
        (∀ ω, (e ω).get k = some (E ω) ∧ (q ω).get k = some (Q ω)) ∧
        ExpectedErrors P E Q (fiberIdx sh (nums sh.length (axesOf a)) k) (fun i => - (sd i * cutGain tr (m i) (sd i)))
          fun i => sd i ^ 2 * (1 - m i / sd i * cutGain tr (m i) (sd i)) := by
  have main : ∀ ω, ∃ e q v,
      result .gaussian I (gaussPrims c F emb) mids (.slot .error) (unsaved (o ω)) (w1 ω) = .ok (some (.num e)) ∧
      result .gaussian I (gaussPrims c F emb) mids (.slot .sqError) (unsaved (o ω)) (w1 ω) = .ok (some (.num q)) ∧
      result .gaussian I (gaussPrims c F emb) mids (.slot .variance) (unsaved (o ω)) (w1 ω) = .ok (some (.num v)) ∧
      (∀ i, InB sh i → v.get i = some (sd i ^ 2)) ∧ mu.shape = sh ∧
      ∀ k, InB (dropAxes (nums sh.length (axesOf a)) sh) k →
        IsAvg c.skipNan ((pairsAt mu (oi ω).ext.o (nums sh.length (axesOf a)) k).map (both fun x y => x - y)) (e.get k) ∧
        IsAvg c.skipNan ((pairsAt mu (oi ω).ext.o (nums sh.length (axesOf a)) k).map (both fun x y => (x - y) ^ 2))
          (q.get k) := by
    intro ω
    have hsh := d.shape ω
    obtain ⟨mu', sg', v, e, ab, q, r, hm, hs, -, hv1, ⟨-, hv2⟩, e1, -, q1, -, ⟨s1, -⟩, k1⟩ := C76_gauss_errors (I := I) (h ω) (hb ω)
      (by rw [hsh, ha]; exact hok) (w1 ω)
    obtain rfl := hasPar_unique hm (hmu ω)
    obtain rfl := hasPar_unique hs (hsg ω)
    rw [hsh, ha] at s1
    simp only [hsh, ha] at k1
    rw [hsh] at hv2
    refine ⟨e, q, v, e1, q1, hv1, fun i hi => ?_, hm.2.trans hsh, fun k hk => ?_⟩
    · rw [hv2 i hi, (hv i hi).2.1]; rfl
    · obtain ⟨b1, -, b3, -⟩ := k1 k (by rw [s1]; exact hk)
      exact ⟨b1, b3⟩
  choose e q v e1 q1 v1 v2 hs k1 using main
  have hΩ : Nonempty Ω := nonempty_of_isProbabilityMeasure P
  refine ⟨e, q, v, e1, q1, v1, v2, fun k hk => ?_⟩
  exact expected_errors (fun i hi => (hv i hi).1) d
    (fun i hi => gauss_moments (d.meas i hi) (hv i hi).2.2 (d.law i hi)) (hs hΩ.some) h0 hk (fun ω => (k1 ω k hk).1)
    fun ω => (k1 ω k hk).2

theorem avg_lt {α : Type} {L : List α} (hL : L ≠ []) {f g : α → ℝ} (h : ∀ i ∈ L, f i < g i) : avg (L.map f) < avg (L.map g) := by
  rw [avg, avg, List.length_map, List.length_map]
  have hlen : (0 : ℝ) < L.length := by exact_mod_cast List.length_pos_iff.2 hL
  rw [div_lt_div_iff_of_pos_right hlen]
  exact List.sum_lt_sum_of_ne_nil hL _ _ h

theorem avg_zero {α : Type} (L : List α) : avg (L.map fun _ => (0 : ℝ)) = 0 := by simp [avg]

/-- **C128**: what follows for the signs. Without truncation right forecasts have no average error and an average squared
error equal to the average of `variance()`. With truncation the average error is negative, whatever the parameters, and the
squared error is larger than `variance()` on average where `mu` is negative, equal where it is zero, smaller where it is
positive. -/
theorem C128_signs {E Q : Ω → ℝ} {L : List (List Nat)} {tr : Bool} {m sd : List Nat → ℝ} (hL : L ≠ []) (hsd : ∀ i ∈ L, 0 < sd i)
    (he : ExpectedErrors P E Q L (fun i => - (sd i * cutGain tr (m i) (sd i)))
      fun i => sd i ^ 2 * (1 - m i / sd i * cutGain tr (m i) (sd i))) :
    (tr = false → ∫ ω, E ω ∂P = 0 ∧ ∫ ω, Q ω ∂P = avg (L.map fun i => sd i ^ 2)) ∧
    (tr = true → ∫ ω, E ω ∂P < 0 ∧
      ((∀ i ∈ L, m i = 0) → ∫ ω, Q ω ∂P = avg (L.map fun i => sd i ^ 2)) ∧
      ((∀ i ∈ L, 0 < m i) → ∫ ω, Q ω ∂P < avg (L.map fun i => sd i ^ 2)) ∧
      ((∀ i ∈ L, m i < 0) → avg (L.map fun i => sd i ^ 2) < ∫ ω, Q ω ∂P)) := by
  rw [he.mean, he.mean_sq]
  constructor
  · rintro rfl
    simp only [cutGain, Bool.false_eq_true, if_false, mul_zero, neg_zero, sub_zero, mul_one, avg_zero]
    trivial
  · rintro rfl
    refine ⟨?_, fun h => ?_, fun h => ?_, fun h => ?_⟩
    · rw [← avg_zero L]
      exact avg_lt hL fun i hi => neg_lt_zero.2 (mul_pos (hsd i hi) (cutGain_pos _ _))
    · congr 1
      exact List.map_congr_left fun i hi => by rw [h i hi]; simp
    · refine avg_lt hL fun i hi => ?_
      have h1 := mul_pos (div_pos (h i hi) (hsd i hi)) (cutGain_pos (m i) (sd i))
      have h2 := pow_pos (hsd i hi) 2
      nlinarith
    · refine avg_lt hL fun i hi => ?_
      have h1 := mul_neg_of_neg_of_pos (div_neg_of_neg_of_pos (h i hi) (hsd i hi)) (cutGain_pos (m i) (sd i))
      have h2 := pow_pos (hsd i hi) 2
      nlinarith

/-- **C128**, the spread-skill diagram with `truncated` set: observations with exactly the announced distributions put a
point on the diagonal (in the mean square) where `mu` is zero, below it where `mu` is positive, above it where `mu` is
negative. -/
theorem C128_diagonal {g : List (List Nat)} {m sd μ v : List Nat → ℝ} {S : ℝ} {R : Ω → ℝ} (hg : g ≠ [])
    (hY : ∀ i ∈ g, Measurable (Y i) ∧ MemLp (Y i) 2 P ∧ ∫ ω, Y i ω ∂P = μ i ∧ ∫ ω, (Y i ω - μ i) ^ 2 ∂P = v i)
    (hl : ∀ i ∈ g, ∀ x, P.real {ω | Y i ω ≤ x} = gaussLaw true (m i) (sd i) x) (hsd : ∀ i ∈ g, 0 < sd i)
    (hp : SkillPoint P g (fun i => sd i ^ 2) (fun i => m i - μ i) v S R) :
    ((∀ i ∈ g, m i = 0) → ∫ ω, R ω ^ 2 ∂P = S ^ 2) ∧ ((∀ i ∈ g, 0 < m i) → ∫ ω, R ω ^ 2 ∂P < S ^ 2) ∧
      ((∀ i ∈ g, m i < 0) → S ^ 2 < ∫ ω, R ω ^ 2 ∂P) := by
  have hk : ∀ i ∈ g, (m i - μ i) ^ 2 + v i = sd i ^ 2 * (1 - m i / sd i * cutGain true (m i) (sd i)) := by
    intro i hi
    obtain ⟨h1, h2, h3, h4⟩ := hY i hi
    rw [← (gauss_moments h1 (hsd i hi) (hl i hi)).2.2, ← h4]
    have i1 := h2.integrable one_le_two
    have e : ∀ ω, (m i - Y i ω) ^ 2 = (m i - μ i) ^ 2 + ((Y i ω - μ i) ^ 2 - 2 * (m i - μ i) * (Y i ω - μ i)) := fun ω => by ring
    have j1 : Integrable (fun ω => (Y i ω - μ i) ^ 2) P := (h2.sub (memLp_const _)).integrable_sq
    have j2 : Integrable (fun ω => 2 * (m i - μ i) * (Y i ω - μ i)) P := (i1.sub (integrable_const _)).const_mul _
    simp only [e]
    have j3 : Integrable (fun ω => (Y i ω - μ i) ^ 2 - 2 * (m i - μ i) * (Y i ω - μ i)) P := j1.sub j2
    rw [integral_add (integrable_const _) j3, integral_sub j1 j2, integral_const_mul,
      integral_sub i1 (integrable_const _), h3]
    simp
  have hR : ∫ ω, R ω ^ 2 ∂P = avg (g.map fun i => sd i ^ 2 * (1 - m i / sd i * cutGain true (m i) (sd i))) := by
    rw [hp.mean_sq]
    congr 1
    exact List.map_congr_left hk
  have hE : ExpectedErrors P (fun _ => avg (g.map fun i => - (sd i * cutGain true (m i) (sd i)))) (fun ω => R ω ^ 2) g
      (fun i => - (sd i * cutGain true (m i) (sd i))) fun i => sd i ^ 2 * (1 - m i / sd i * cutGain true (m i) (sd i)) :=
    ⟨integrable_const _, by simp, hp.integrable_sq, hR⟩
  have := ((C128_signs hg hsd hE).2 rfl).2
  rwa [← hp.spread.2] at this

/-! ## The gamma class -/

/-- the standard gamma distribution with shape `k` -/
theorem stdGamma_prob {k : ℝ} (hk : 0 < k) : IsProbabilityMeasure (dens (gammaPdf k)) :=
  dens_prob (gammaPdf_nonneg hk) (integrable_gammaPdf hk) (integral_gammaPdf hk)

theorem stdGamma_law {k : ℝ} (hk : 0 < k) (δ : ℝ) {θ : ℝ} (hθ : 0 < θ) (x : ℝ) :
    (dens (gammaPdf k)).real {z | δ + θ * z ≤ x} = gammaCdf k ((x - δ) / θ) := by
  have : {z | δ + θ * z ≤ x} = Set.Iic ((x - δ) / θ) := by
    ext z
    simp only [Set.mem_ofPred_eq, Set.mem_Iic]
    rw [le_div_iff₀ hθ]
    constructor <;> intro h <;> linarith
  rw [this, dens_law (gammaPdf_nonneg hk) (integrable_gammaPdf hk)]
  rfl

/-- the moved gamma distribution: distance of its numbers from a point `a` -/
theorem stdGamma_moments {u s : ℝ} (hu : 0 < u) (hs : 0 < s) (δ a : ℝ) :
    (Integrable (fun z => a - (δ + s ^ 2 / u * z)) (dens (gammaPdf ((u / s) ^ 2))) ∧
      ∫ z, a - (δ + s ^ 2 / u * z) ∂(dens (gammaPdf ((u / s) ^ 2))) = a - (u + δ)) ∧
    Integrable (fun z => (a - (δ + s ^ 2 / u * z)) ^ 2) (dens (gammaPdf ((u / s) ^ 2))) ∧
      ∫ z, (a - (δ + s ^ 2 / u * z)) ^ 2 ∂(dens (gammaPdf ((u / s) ^ 2))) = (a - (u + δ)) ^ 2 + s ^ 2 := by
  have hk : 0 < (u / s) ^ 2 := by positivity
  have := stdGamma_prob hk
  have h0 := gammaPdf_nonneg hk
  have hp := measurable_gammaPdf ((u / s) ^ 2)
  have i1 := integrable_dens h0 hp (gamma_mean hk)
  have i2 := integrable_dens h0 hp (gamma_sq hk)
  have m1 := integral_dens h0 hp fun z => z
  have m2 := integral_dens h0 hp fun z => z ^ 2
  rw [integral_gamma_mul hk] at m1
  rw [integral_gamma_sq hk] at m2
  generalize dens (gammaPdf ((u / s) ^ 2)) = D at *
  have e1 : (fun z : ℝ => a - (δ + s ^ 2 / u * z)) = fun z => (a - δ) - s ^ 2 / u * z := by funext z; ring
  have e2 : (fun z : ℝ => (a - (δ + s ^ 2 / u * z)) ^ 2) =
      fun z => (a - δ) ^ 2 - (2 * (a - δ) * (s ^ 2 / u) * z - (s ^ 2 / u) ^ 2 * z ^ 2) := by funext z; ring
  have j1 := i1.const_mul (s ^ 2 / u)
  have j2 := i1.const_mul (2 * (a - δ) * (s ^ 2 / u))
  have j3 := i2.const_mul ((s ^ 2 / u) ^ 2)
  have j4 : Integrable (fun z => 2 * (a - δ) * (s ^ 2 / u) * z - (s ^ 2 / u) ^ 2 * z ^ 2) D := j2.sub j3
  rw [e2, e1]
  refine ⟨⟨(integrable_const _).sub j1, ?_⟩, (integrable_const _).sub j4, ?_⟩
  · rw [integral_sub (integrable_const _) j1, integral_const_mul, m1]
    simp only [integral_const, probReal_univ, one_smul]
    field_simp
    ring
  · rw [integral_sub (integrable_const _) j4, integral_sub j2 j3, integral_const_mul, integral_const_mul, m1, m2]
    simp only [integral_const, probReal_univ, one_smul]
    field_simp
    ring

theorem gamma_moments {Y : Ω → ℝ} (hY : Measurable Y) {u s δ : ℝ} (hu : 0 < u) (hs : 0 < s)
    (hl : ∀ x, P.real {ω | Y ω ≤ x} = shiftedGammaCdf u s δ x) (a : ℝ) :
    (Integrable (fun ω => a - Y ω) P ∧ ∫ ω, a - Y ω ∂P = a - (u + δ)) ∧
    Integrable (fun ω => (a - Y ω) ^ 2) P ∧ ∫ ω, (a - Y ω) ^ 2 ∂P = (a - (u + δ)) ^ 2 + s ^ 2 := by
  have hk : 0 < (u / s) ^ 2 := by positivity
  have := stdGamma_prob hk
  have hl' : ∀ x, P.real {ω | Y ω ≤ x} = (dens (gammaPdf ((u / s) ^ 2))).real {z | δ + s ^ 2 / u * z ≤ x} := fun x => by
    rw [hl, stdGamma_law hk δ (by positivity)]; rfl
  obtain ⟨⟨i1, m1⟩, i2, m2⟩ := stdGamma_moments hu hs δ a
  obtain ⟨a1, a2⟩ := mean_of_law hY (by fun_prop) hl' (g := fun y => a - y) (by fun_prop) i1
  obtain ⟨b1, b2⟩ := mean_of_law hY (by fun_prop) hl' (g := fun y => (a - y) ^ 2) (by fun_prop) i2
  exact ⟨⟨a1, a2.trans m1⟩, b1, b2.trans m2⟩

theorem gamma_error_pairs {Ω : Type} {sh : List Nat} {oi o : Ω → Obj (ProbX ℝ)} {w w' w1 : Ω → World (PyVal ℝ)}
    (h : ∀ ω, construct (gammaPrims c F emb) mids (oi ω) (w ω) = (.ok (o ω), w' ω)) (hsh : ∀ ω, (oi ω).ext.o.shape = sh)
    {mu : NDArr (Fl ℝ)} (hmu : ∀ ω, HasPar (oi ω).ext "mu" mu)
    {a : PyAxis} (ha : ∀ ω, (oi ω).avg = a) (hb : ∀ ω, (oi ω).boot = .none) (hok : OptOK sh.length (axesOf a)) (ω : Ω) :
    ∃ e q, result .gamma I (gammaPrims c F emb) mids (.slot .error) (unsaved (o ω)) (w1 ω) = .ok (some (.num e)) ∧
      result .gamma I (gammaPrims c F emb) mids (.slot .sqError) (unsaved (o ω)) (w1 ω) = .ok (some (.num q)) ∧
      mu.shape = sh ∧
      ∀ k, InB (dropAxes (nums sh.length (axesOf a)) sh) k →
        IsAvg c.skipNan ((pairsAt mu (oi ω).ext.o (nums sh.length (axesOf a)) k).map (both fun x y => x - y)) (e.get k) ∧
        IsAvg c.skipNan ((pairsAt mu (oi ω).ext.o (nums sh.length (axesOf a)) k).map (both fun x y => (x - y) ^ 2))
          (q.get k) := by
  have hsh := hsh ω
  obtain ⟨mu', sg', v, e, ab, q, r, hm, -, -, -, -, e1, -, q1, -, ⟨s1, -⟩, k1⟩ := C76_gamma_errors (I := I) (h ω) (hb ω)
    (by rw [hsh, ha]; exact hok) (w1 ω)
  obtain rfl := hasPar_unique hm (hmu ω)
  rw [hsh, ha] at s1
  simp only [hsh, ha] at k1
  refine ⟨e, q, e1, q1, hm.2.trans hsh, fun k hk => ?_⟩
  obtain ⟨b1, -, b3, -⟩ := k1 k (by rw [s1]; exact hk)
  exact ⟨b1, b3⟩

/-- **C128**, gamma class. The observations have the distributions of `cdf()`, given by `f['unshifted_mu']`, `f['sigma']` and
`f['shift']`. Then `error()` and `sq_error()` are on average those of a forecast `f['mu']` of their means: nothing makes
`f['mu']` the sum of `f['unshifted_mu']` and `f['shift']`, and the difference of the two is what the averages show. -/
theorem C128_gamma {oi o : Ω → Obj (ProbX ℝ)} {w w' w1 : Ω → World (PyVal ℝ)}
    (h : ∀ ω, construct (gammaPrims c F emb) mids (oi ω) (w ω) = (.ok (o ω), w' ω)) {m u sd δ : List Nat → ℝ}
    (d : Drawn P sh (fun ω => (oi ω).ext.o) Y fun i => shiftedGammaCdf (u i) (sd i) (δ i))
    (hpos : ∀ i, InB sh i → 0 < u i ∧ 0 < sd i)
    {mu : NDArr (Fl ℝ)} (hmu : ∀ ω, HasPar (oi ω).ext "mu" mu) (hv : ∀ i, InB sh i → mu.get i = some (m i))
    {a : PyAxis} (ha : ∀ ω, (oi ω).avg = a) (hb : ∀ ω, (oi ω).boot = .none) (h0 : 0 ∉ sh)
    (hok : OptOK sh.length (axesOf a)) :
    ∃ e q : Ω → NDArr (Fl ℝ),
      (∀ ω, result .gamma I (gammaPrims c F emb) mids (.slot .error) (unsaved (o ω)) (w1 ω) = .ok (some (.num (e ω)))) ∧
      (∀ ω, result .gamma I (gammaPrims c F emb) mids (.slot .sqError) (unsaved (o ω)) (w1 ω) = .ok (some (.num (q ω)))) ∧
      ∀ k, InB (dropAxes (nums sh.length (axesOf a)) sh) k → ∃ E Q : Ω → ℝ,
        (∀ ω, (e ω).get k = some (E ω) ∧ (q ω).get k = some (Q ω)) ∧
        ExpectedErrors P E Q (fiberIdx sh (nums sh.length (axesOf a)) k) (fun i => m i - (u i + δ i))
          fun i => (m i - (u i + δ i)) ^ 2 + sd i ^ 2 := by
  have main := gamma_error_pairs (I := I) (w1 := w1) h d.shape hmu ha hb hok
  choose e q e1 q1 hs k1 using main
  have hΩ : Nonempty Ω := nonempty_of_isProbabilityMeasure P
  refine ⟨e, q, e1, q1, fun k hk => ?_⟩
  exact expected_errors hv d (fun i hi => gamma_moments (d.meas i hi) (hpos i hi).1 (hpos i hi).2 (d.law i hi) (m i))
    (hs hΩ.some) h0 hk (fun ω => (k1 ω k hk).1) fun ω => (k1 ω k hk).2

theorem censored_law {k : ℝ} (hk : 0 < k) (δ : ℝ) {θ : ℝ} (hθ : 0 < θ) (x : ℝ) :
    (dens (gammaPdf k)).real {z | max (δ + θ * z) 0 ≤ x} = if x < 0 then 0 else gammaCdf k ((x - δ) / θ) := by
  split_ifs with hx
  · have : {z | max (δ + θ * z) 0 ≤ x} = ∅ := by
      ext z
      simp only [Set.mem_ofPred_eq, Set.mem_empty_iff_false, iff_false, max_le_iff, not_and]
      intro _ h; linarith
    rw [this, measureReal_empty]
  · rw [← stdGamma_law hk δ hθ]
    congr 1
    ext z
    simp only [Set.mem_ofPred_eq, max_le_iff, not_lt.1 hx, and_true]

/-- what a gamma distribution moved below zero leaves there is felt by every function that is positive there -/
theorem below_zero_pos {k : ℝ} (hk : 0 < k) {δ θ : ℝ} (hθ : 0 < θ) (hδ : δ < 0) {f : ℝ → ℝ} (h0 : ∀ z, 0 ≤ f z)
    (hf : ∀ z, δ + θ * z < 0 → 0 < f z) (hi : Integrable f (dens (gammaPdf k))) : 0 < ∫ z, f z ∂(dens (gammaPdf k)) := by
  have := stdGamma_prob hk
  rw [integral_pos_iff_support_of_nonneg h0 hi]
  have h1 := stdGamma_law hk δ hθ (δ / 2)
  have h2 : 0 < gammaCdf k ((δ / 2 - δ) / θ) := gammaCdf_pos hk (div_pos (by linarith) hθ)
  rw [← h1] at h2
  have h3 : 0 < (dens (gammaPdf k)) {z | δ + θ * z ≤ δ / 2} := by
    rw [measureReal_def] at h2
    exact (ENNReal.toReal_pos_iff.1 h2).1
  refine h3.trans_le (measure_mono fun z hz => ?_)
  simp only [Set.mem_ofPred_eq] at hz
  exact (hf z (by linarith)).ne'

/-- above zero nothing changes -/
theorem above_zero_ae {k : ℝ} (hk : 0 < k) {δ θ : ℝ} (hθ : 0 < θ) (hδ : 0 ≤ δ) :
    ∀ᵐ z ∂(dens (gammaPdf k)), max (δ + θ * z) 0 = δ + θ * z := by
  have := stdGamma_prob hk
  have h : (dens (gammaPdf k)) (Set.Iic 0) = 0 := by
    have h1 := dens_law (gammaPdf_nonneg hk) (integrable_gammaPdf hk) 0
    have h2 : ∫ t in Set.Iic (0 : ℝ), gammaPdf k t = 0 := gammaCdf_of_nonpos le_rfl
    rw [h2] at h1
    exact (measureReal_eq_zero_iff).1 h1
  have h3 : ∀ᵐ z ∂(dens (gammaPdf k)), z ∉ Set.Iic (0 : ℝ) := measure_eq_zero_iff_ae_notMem.1 h
  filter_upwards [h3] with z hz
  rw [Set.mem_Iic, not_le] at hz
  exact max_eq_left (add_nonneg hδ (mul_pos hθ hz).le)

theorem censored_moments {Y : Ω → ℝ} (hY : Measurable Y) {u s δ : ℝ} (hu : 0 < u) (hs : 0 < s)
    (hl : ∀ x, P.real {ω | Y ω ≤ x} = censoredGammaCdf u s δ x) :
    Integrable (fun ω => (u + δ) - Y ω) P ∧ Integrable (fun ω => ((u + δ) - Y ω) ^ 2) P ∧
    (0 ≤ δ → ∫ ω, (u + δ) - Y ω ∂P = 0 ∧ ∫ ω, ((u + δ) - Y ω) ^ 2 ∂P = s ^ 2) ∧
    (δ < 0 → ∫ ω, (u + δ) - Y ω ∂P < 0 ∧ (0 ≤ u + δ → ∫ ω, ((u + δ) - Y ω) ^ 2 ∂P < s ^ 2)) := by
  have hk : 0 < (u / s) ^ 2 := by positivity
  have hθ : 0 < s ^ 2 / u := by positivity
  have := stdGamma_prob hk
  have hl' : ∀ x, P.real {ω | Y ω ≤ x} =
      (dens (gammaPdf ((u / s) ^ 2))).real {z | max (δ + s ^ 2 / u * z) 0 ≤ x} := fun x => by
    rw [hl, censored_law hk δ hθ]; rfl
  obtain ⟨⟨i1, m1⟩, i2, m2⟩ := stdGamma_moments hu hs δ (u + δ)
  have hbel := fun hδ f h0 hf => below_zero_pos hk hθ (δ := δ) hδ (f := f) h0 hf
  have hae := fun hδ => above_zero_ae hk hθ (δ := δ) hδ
  rw [sub_self] at m1 m2
  have m2' : ∫ z, (u + δ - (δ + s ^ 2 / u * z)) ^ 2 ∂(dens (gammaPdf ((u / s) ^ 2))) = s ^ 2 := m2.trans (by ring)
  clear m2
  generalize dens (gammaPdf ((u / s) ^ 2)) = D at *
  generalize s ^ 2 / u = θ at *
  have hX : Measurable fun z : ℝ => max (δ + θ * z) 0 := by fun_prop
  have j0 : Integrable (fun z : ℝ => δ + θ * z) D := by
    refine ((integrable_const (u + δ)).sub i1).congr (ae_of_all _ fun z => ?_)
    show (u + δ) - (u + δ - (δ + θ * z)) = _
    ring
  have j1 : Integrable (fun z => (u + δ) - max (δ + θ * z) 0) D := (integrable_const _).sub j0.pos_part
  have j2 : Integrable (fun z => ((u + δ) - max (δ + θ * z) 0) ^ 2) D := by
    refine (i2.add (integrable_const ((u + δ) ^ 2))).mono' (by fun_prop) (ae_of_all _ fun z => ?_)
    rw [Real.norm_of_nonneg (sq_nonneg _)]
    show _ ≤ (u + δ - (δ + θ * z)) ^ 2 + (u + δ) ^ 2
    rcases le_total 0 (δ + θ * z) with h | h
    · rw [max_eq_left h]; linarith [sq_nonneg (u + δ)]
    · rw [max_eq_right h, sub_zero]; linarith [sq_nonneg (u + δ - (δ + θ * z))]
  obtain ⟨a1, a2⟩ := mean_of_law hY hX hl' (g := fun y => (u + δ) - y) (by fun_prop) j1
  obtain ⟨b1, b2⟩ := mean_of_law hY hX hl' (g := fun y => ((u + δ) - y) ^ 2) (by fun_prop) j2
  refine ⟨a1, b1, fun hδ => ⟨?_, ?_⟩, fun hδ => ⟨?_, fun hm => ?_⟩⟩
  · rw [a2]
    refine Eq.trans (integral_congr_ae ?_) m1
    filter_upwards [hae hδ] with z hz
    rw [hz]
  · rw [b2]
    refine Eq.trans (integral_congr_ae ?_) m2'
    filter_upwards [hae hδ] with z hz
    rw [hz]
  · rw [a2]
    have h := hbel hδ (fun z => (u + δ - (δ + θ * z)) - (u + δ - max (δ + θ * z) 0))
      (fun z => by linarith [le_max_left (δ + θ * z) 0])
      (fun z hz => by rw [max_eq_right hz.le]; linarith) (i1.sub j1)
    rw [integral_sub i1 j1, m1] at h
    linarith
  · rw [b2]
    have h := hbel hδ (fun z => (u + δ - (δ + θ * z)) ^ 2 - (u + δ - max (δ + θ * z) 0) ^ 2)
      (fun z => by
        rcases le_total 0 (δ + θ * z) with h | h
        · rw [max_eq_left h, sub_self]
        · rw [max_eq_right h]
          generalize δ + θ * z = x at *
          nlinarith)
      (fun z hz => by
        rw [max_eq_right hz.le]
        generalize δ + θ * z = x at *
        nlinarith) (i2.sub j2)
    rw [integral_sub i2 j2, m2'] at h
    linarith

theorem avg_le {α : Type} {L : List α} {f g : α → ℝ} (h : ∀ i ∈ L, f i ≤ g i) : avg (L.map f) ≤ avg (L.map g) := by
  rw [avg, avg, List.length_map, List.length_map]
  exact div_le_div_of_nonneg_right (List.sum_le_sum h) (Nat.cast_nonneg _)

theorem avg_lt' {α : Type} {L : List α} {f g : α → ℝ} (h : ∀ i ∈ L, f i ≤ g i) (hx : ∃ i ∈ L, f i < g i) :
    avg (L.map f) < avg (L.map g) := by
  rw [avg, avg, List.length_map, List.length_map]
  have hlen : (0 : ℝ) < L.length := by
    obtain ⟨i, hi, -⟩ := hx
    exact_mod_cast List.length_pos_of_mem hi
  rw [div_lt_div_iff_of_pos_right hlen]
  exact List.sum_lt_sum _ _ h hx

/-- **C128**, gamma class, observations with the distributions that `crps()` and the PIT compare them with: the moved gamma
distributions with everything below zero put to zero. With `f['mu']` the sum of `f['unshifted_mu']` and `f['shift']` the
average error is zero where no shift is negative, and negative on average as soon as one position has a negative shift;
then `sq_error()` is smaller than `variance()` on average (`f['mu']` not negative). -/
theorem C128_gamma_censored {oi o : Ω → Obj (ProbX ℝ)} {w w' w1 : Ω → World (PyVal ℝ)}
    (h : ∀ ω, construct (gammaPrims c F emb) mids (oi ω) (w ω) = (.ok (o ω), w' ω)) {u sd δ : List Nat → ℝ}
    (d : Drawn P sh (fun ω => (oi ω).ext.o) Y fun i => censoredGammaCdf (u i) (sd i) (δ i))
    (hpos : ∀ i, InB sh i → 0 < u i ∧ 0 < sd i)
    {mu : NDArr (Fl ℝ)} (hmu : ∀ ω, HasPar (oi ω).ext "mu" mu) (hv : ∀ i, InB sh i → mu.get i = some (u i + δ i))
    {a : PyAxis} (ha : ∀ ω, (oi ω).avg = a) (hb : ∀ ω, (oi ω).boot = .none) (h0 : 0 ∉ sh)
    (hok : OptOK sh.length (axesOf a)) :
    ∃ e q : Ω → NDArr (Fl ℝ),
      (∀ ω, result .gamma I (gammaPrims c F emb) mids (.slot .error) (unsaved (o ω)) (w1 ω) = .ok (some (.num (e ω)))) ∧
      (∀ ω, result .gamma I (gammaPrims c F emb) mids (.slot .sqError) (unsaved (o ω)) (w1 ω) = .ok (some (.num (q ω)))) ∧
      ∀ k, InB (dropAxes (nums sh.length (axesOf a)) sh) k → ∃ E Q : Ω → ℝ,
        (∀ ω, (e ω).get k = some (E ω) ∧ (q ω).get k = some (Q ω)) ∧ Integrable E P ∧ Integrable Q P ∧
        (let L := fiberIdx sh (nums sh.length (axesOf a)) k
        ((∀ i ∈ L, 0 ≤ δ i) → ∫ ω, E ω ∂P = 0 ∧ ∫ ω, Q ω ∂P = avg (L.map fun i => sd i ^ 2)) ∧
        ((∃ i ∈ L, δ i < 0) → ∫ ω, E ω ∂P < 0 ∧
          ((∀ i ∈ L, 0 ≤ u i + δ i) → ∫ ω, Q ω ∂P < avg (L.map fun i => sd i ^ 2)))) := by
  have main := gamma_error_pairs (I := I) (w1 := w1) h d.shape hmu ha hb hok
  choose e q e1 q1 hs k1 using main
  have hΩ : Nonempty Ω := nonempty_of_isProbabilityMeasure P
  refine ⟨e, q, e1, q1, fun k hk => ?_⟩
  have hmo := fun i hi => censored_moments (P := P) (d.meas i hi) (hpos i hi).1 (hpos i hi).2 (d.law i hi)
  obtain ⟨E, Q, eq1, ee⟩ := expected_errors hv d (fun i hi => ⟨⟨(hmo i hi).1, rfl⟩, (hmo i hi).2.1, rfl⟩)
    (hs hΩ.some) h0 hk (fun ω => (k1 ω k hk).1) fun ω => (k1 ω k hk).2
  refine ⟨E, Q, eq1, ee.integrable, ee.integrable_sq, fun hd => ?_, fun hd => ⟨?_, fun hm => ?_⟩⟩
  · rw [ee.mean, ee.mean_sq]
    refine ⟨(congrArg avg (List.map_congr_left fun i hi => ?_)).trans (avg_zero _),
      congrArg avg (List.map_congr_left fun i hi => ?_)⟩
    · exact ((hmo i (mem_fiberIdx.1 hi).1).2.2.1 (hd i hi)).1
    · exact ((hmo i (mem_fiberIdx.1 hi).1).2.2.1 (hd i hi)).2
  · rw [ee.mean, ← avg_zero (fiberIdx sh (nums sh.length (axesOf a)) k)]
    have key := fun i (hi : i ∈ fiberIdx sh (nums sh.length (axesOf a)) k) => hmo i (mem_fiberIdx.1 hi).1
    refine avg_lt' (fun i hi => ?_) ?_
    · rcases le_or_gt 0 (δ i) with h | h
      · exact ((key i hi).2.2.1 h).1.le
      · exact ((key i hi).2.2.2 h).1.le
    · obtain ⟨i, hi, h⟩ := hd
      exact ⟨i, hi, ((key i hi).2.2.2 h).1⟩
  · rw [ee.mean_sq]
    have key := fun i (hi : i ∈ fiberIdx sh (nums sh.length (axesOf a)) k) => hmo i (mem_fiberIdx.1 hi).1
    refine avg_lt' (fun i hi => ?_) ?_
    · rcases le_or_gt 0 (δ i) with h | h
      · exact ((key i hi).2.2.1 h).2.le
      · exact (((key i hi).2.2.2 h).2 (hm i hi)).le
    · obtain ⟨i, hi, h⟩ := hd
      exact ⟨i, hi, ((key i hi).2.2.2 h).2 (hm i hi)⟩

/-- A verifier with `truncated=True`, `mu` and `sigma` 1 at both positions, and observations with exactly the distribution it
announces: the average error is negative and the squared error smaller than the announced variance. -/
example : ∃ (Y : ℝ → ℝ) (o e q : ℝ → _),
    (∀ x, (aboveNormal (-1 / 1)).real {ω | Y ω ≤ x} = gaussLaw true 1 1 x) ∧
    (∀ ω, ∃ w, construct (gaussPrims ssCfg (fnsPit 0) embBoth) noMids
      (probObj (pitX { (gaussX true : ProbX ℝ) with
        f := [("mu", ⟨[2], [some 1, some 1], rfl⟩), ("sigma", ⟨[2], [some 1, some 1], rfl⟩)] } false (Y ω) (Y ω)))
      world0 = (.ok (o ω), w)) ∧
    (∀ ω, result .gaussian bothInfo (gaussPrims ssCfg (fnsPit 0) embBoth) noMids (.slot .error) (unsaved (o ω)) world0 =
      .ok (some (.num (e ω)))) ∧
    (∀ ω, result .gaussian bothInfo (gaussPrims ssCfg (fnsPit 0) embBoth) noMids (.slot .sqError) (unsaved (o ω)) world0 =
      .ok (some (.num (q ω)))) ∧
    ∃ E Q : ℝ → ℝ, (∀ ω, (e ω).get [] = some (E ω) ∧ (q ω).get [] = some (Q ω)) ∧
      ∫ ω, E ω ∂(aboveNormal (-1 / 1)) < 0 ∧ ∫ ω, Q ω ∂(aboveNormal (-1 / 1)) < 1 := by
  have hb : ∀ ω : ℝ, ∃ o w, construct (gaussPrims ssCfg (fnsPit 0) embBoth) noMids
      (probObj (pitX { (gaussX true : ProbX ℝ) with
        f := [("mu", ⟨[2], [some 1, some 1], rfl⟩), ("sigma", ⟨[2], [some 1, some 1], rfl⟩)] } false
          (1 + 1 * ω) (1 + 1 * ω))) world0 = (.ok o, w) := fun ω => ⟨_, _, rfl⟩
  choose o w h using hb
  have hlaw : ∀ x, (aboveNormal (-1 / 1)).real {ω | 1 + 1 * ω ≤ x} = gaussLaw true 1 1 x := aboveNormal_law 1 one_pos
  obtain ⟨e, q, v, e1, q1, -, -, k1⟩ := C128_gauss (I := bothInfo) (P := aboveNormal (-1 / 1)) (sh := [2])
    (w1 := fun _ => world0) h (Y := fun _ ω => 1 + 1 * ω) (tr := true) (m := fun _ => 1) (sd := fun _ => 1)
    { shape := fun _ => rfl
      value := fun i hi ω => by rcases two_positions hi with rfl | rfl <;> rfl
      meas := fun i _ => by fun_prop
      mean := fun i _ => (aboveNormal_memLp _ _ _).integrable one_le_two
      law := fun i _ => hlaw }
    (mu := ⟨[2], [some 1, some 1], rfl⟩) (sigma := ⟨[2], [some 1, some 1], rfl⟩) (fun _ => ⟨rfl, rfl⟩)
    (fun _ => ⟨rfl, rfl⟩)
    (fun i hi => by rcases two_positions hi with rfl | rfl <;> exact ⟨rfl, rfl, one_pos⟩)
    (a := .none) (fun _ => rfl) (fun _ => rfl) (by decide) trivial
  obtain ⟨E, Q, k2, k3⟩ := k1 [] (by decide)
  have hs := (C128_signs (fiberIdx_ne (by decide) (by decide)) (fun _ _ => one_pos) k3).2 rfl
  refine ⟨_, o, e, q, hlaw, fun ω => ⟨w ω, h ω⟩, e1, q1, E, Q, k2, hs.1, ?_⟩
  have := hs.2.2.1 fun _ _ => one_pos
  rw [show fiberIdx [2] (nums [2].length (axesOf .none)) [] = [[0], [1]] by decide] at this
  refine this.trans_le ?_
  norm_num [avg]

/-- what is left at and above zero of the gamma distribution with mean 2 and standard deviation 1, moved by -1 -/
theorem case_censored (x : ℝ) : (dens (gammaPdf ((2 / 1) ^ 2))).real {ω | max (-1 + 1 ^ 2 / 2 * ω) 0 ≤ x} =
    censoredGammaCdf 2 1 (-1) x := censored_law (by norm_num) (-1) (by norm_num) x

/-- A gamma verifier whose `mu` is `unshifted_mu` plus `shift`, and observations with the distribution its `crps()` compares
them with: a negative average error and a squared error smaller than the announced variance. -/
example : ∃ (o e q : ℝ → _),
    (∀ ω, ∃ w, construct (gammaPrims ssCfg (fnsPit 0) embBoth) noMids
      (probObj (pitX { (gammaX false : ProbX ℝ) with
        f := [("mu", ⟨[2], [some 1, some 1], rfl⟩), ("unshifted_mu", ⟨[2], [some 2, some 2], rfl⟩),
          ("sigma", ⟨[2], [some 1, some 1], rfl⟩), ("shift", ⟨[2], [some (-1), some (-1)], rfl⟩)] } false
          (max (-1 + 1 ^ 2 / 2 * ω) 0) (max (-1 + 1 ^ 2 / 2 * ω) 0))) world0 = (.ok (o ω), w)) ∧
    (∀ ω, result .gamma bothInfo (gammaPrims ssCfg (fnsPit 0) embBoth) noMids (.slot .error) (unsaved (o ω)) world0 =
      .ok (some (.num (e ω)))) ∧
    (∀ ω, result .gamma bothInfo (gammaPrims ssCfg (fnsPit 0) embBoth) noMids (.slot .sqError) (unsaved (o ω)) world0 =
      .ok (some (.num (q ω)))) ∧
    ∃ E Q : ℝ → ℝ, (∀ ω, (e ω).get [] = some (E ω) ∧ (q ω).get [] = some (Q ω)) ∧
      ∫ ω, E ω ∂(dens (gammaPdf ((2 / 1) ^ 2))) < 0 ∧ ∫ ω, Q ω ∂(dens (gammaPdf ((2 / 1) ^ 2))) < 1 := by
  have := stdGamma_prob (show (0 : ℝ) < (2 / 1) ^ 2 by norm_num)
  have hi : Integrable (fun ω : ℝ => max (-1 + 1 ^ 2 / 2 * ω) 0) (dens (gammaPdf ((2 / 1) ^ 2))) := by
    have h1 := (censored_moments (Y := fun ω : ℝ => max (-1 + 1 ^ 2 / 2 * ω) 0) (by fun_prop) two_pos one_pos case_censored).1
    refine ((integrable_const ((2 : ℝ) + -1)).sub h1).congr (ae_of_all _ fun ω => ?_)
    simp only [Pi.sub_apply]
    ring
  have hb : ∀ ω : ℝ, ∃ o w, construct (gammaPrims ssCfg (fnsPit 0) embBoth) noMids
      (probObj (pitX { (gammaX false : ProbX ℝ) with
        f := [("mu", ⟨[2], [some 1, some 1], rfl⟩), ("unshifted_mu", ⟨[2], [some 2, some 2], rfl⟩),
          ("sigma", ⟨[2], [some 1, some 1], rfl⟩), ("shift", ⟨[2], [some (-1), some (-1)], rfl⟩)] } false
          (max (-1 + 1 ^ 2 / 2 * ω) 0) (max (-1 + 1 ^ 2 / 2 * ω) 0))) world0 = (.ok o, w) := fun ω => ⟨_, _, rfl⟩
  choose o w h using hb
  obtain ⟨e, q, e1, q1, k1⟩ := C128_gamma_censored (I := bothInfo) (P := dens (gammaPdf ((2 / 1) ^ 2))) (sh := [2])
    (w1 := fun _ => world0) h (Y := fun _ ω => max (-1 + 1 ^ 2 / 2 * ω) 0) (u := fun _ => 2) (sd := fun _ => 1)
    (δ := fun _ => -1)
    { shape := fun _ => rfl
      value := fun i hi ω => by rcases two_positions hi with rfl | rfl <;> rfl
      meas := fun i _ => by fun_prop
      mean := fun i _ => hi
      law := fun i _ => case_censored }
    (fun _ _ => ⟨two_pos, one_pos⟩) (mu := ⟨[2], [some 1, some 1], rfl⟩) (fun _ => ⟨rfl, rfl⟩)
    (fun i hi => by
      have e : (2 : ℝ) + -1 = 1 := by norm_num
      rcases two_positions hi with rfl | rfl <;> rw [e] <;> rfl)
    (a := .none) (fun _ => rfl) (fun _ => rfl) (by decide) trivial
  obtain ⟨E, Q, k2, -, -, -, k3⟩ := k1 [] (by decide)
  have hs := k3 ⟨[0], by decide, by norm_num⟩
  refine ⟨o, e, q, fun ω => ⟨w ω, h ω⟩, e1, q1, E, Q, k2, hs.1, ?_⟩
  have := hs.2 fun _ _ => by norm_num
  rw [show fiberIdx [2] (nums [2].length (axesOf .none)) [] = [[0], [1]] by decide] at this
  refine this.trans_le ?_
  norm_num [avg]

/-- a law for `C128_gamma`, and parameters that put the average error at 2 although the law is exactly the announced one -/
example : ∃ (Y : ℝ → ℝ), Measurable Y ∧ (∀ x, (dens (gammaPdf ((2 / 1) ^ 2))).real {ω | Y ω ≤ x} = shiftedGammaCdf 2 1 (-1) x) ∧
    ∫ ω, 3 - Y ω ∂(dens (gammaPdf ((2 / 1) ^ 2))) = 2 := by
  have := stdGamma_prob (show (0 : ℝ) < (2 / 1) ^ 2 by norm_num)
  have hl : ∀ x, (dens (gammaPdf ((2 / 1) ^ 2))).real {ω | -1 + 1 ^ 2 / 2 * ω ≤ x} = shiftedGammaCdf 2 1 (-1) x :=
    fun x => stdGamma_law (by norm_num) (-1) (by norm_num) x
  refine ⟨fun z => -1 + 1 ^ 2 / 2 * z, by fun_prop, hl, ?_⟩
  have := (gamma_moments (Y := fun z : ℝ => -1 + 1 ^ 2 / 2 * z) (by fun_prop) two_pos one_pos hl 3).1.2
  rw [this]
  norm_num

end Props
