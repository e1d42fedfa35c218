import Verif.Props.BootCoverage
import Verif.Props.DmLimitCase
import Verif.Props.CountLimitsCase
import Mathlib.MeasureTheory.Function.Floor

/-!
# C136: intervals of normal errors with fair draws
-/

namespace Props
open Np NDArr Model Spec Lemmas MeasureTheory ProbabilityTheory Filter Topology

/-- a number anywhere between 0 and 1 -/
noncomputable def spin : Measure ℝ := volume.restrict (Set.Ico 0 1)

instance : IsProbabilityMeasure spin := ⟨by simp [spin]⟩

/-- for every repeat an endless sequence of spins -/
noncomputable def spins : Measure (ℕ → ℕ → ℝ) := Measure.infinitePi fun _ => Measure.infinitePi fun _ => spin

instance : IsProbabilityMeasure spins := by unfold spins; infer_instance

/-- one of `N` positions -/
noncomputable def pick (N : ℕ) (u : ℝ) : ℕ := ⌊(N : ℝ) * u⌋₊

theorem measurable_pick (N : ℕ) : Measurable (pick N) := by
  have h : Measurable fun u : ℝ => (N : ℝ) * u := by fun_prop
  exact h.nat_floor

theorem pick_fair {N i : ℕ} (hi : i < N) : spin.real {u | pick N u % N = i} = 1 / (N : ℝ) := by
  have hN : (0 : ℝ) < N := by exact_mod_cast (Nat.zero_le i).trans_lt hi
  have hm : MeasurableSet {u | pick N u % N = i} :=
    (measurable_pick N) (MeasurableSet.of_discrete (s := {m : ℕ | m % N = i}))
  have hset : {u | pick N u % N = i} ∩ Set.Ico 0 1 = Set.Ico ((i : ℝ) / N) ((i + 1 : ℝ) / N) := by
    ext u
    simp only [Set.mem_inter_iff, Set.mem_ofPred_eq, Set.mem_Ico, pick]
    rw [div_le_iff₀ hN, lt_div_iff₀ hN]
    constructor
    · rintro ⟨h, h0, h1⟩
      have hlt : ⌊(N : ℝ) * u⌋₊ < N := by
        rw [Nat.floor_lt (by positivity)]
        nlinarith
      rw [Nat.mod_eq_of_lt hlt, Nat.floor_eq_iff (by positivity)] at h
      constructor <;> linarith [h.1, h.2]
    · rintro ⟨h0, h1⟩
      have hu0 : 0 ≤ u := by
        by_contra hneg
        have : (0 : ℝ) ≤ i := by positivity
        nlinarith
      have hle : (i : ℝ) + 1 ≤ N := by exact_mod_cast hi
      have hu1 : u < 1 := by
        by_contra hge
        nlinarith
      have e : ⌊(N : ℝ) * u⌋₊ = i := by
        rw [Nat.floor_eq_iff (by positivity)]
        constructor <;> linarith
      exact ⟨by rw [e, Nat.mod_eq_of_lt hi], hu0, hu1⟩
  rw [measureReal_def, spin, Measure.restrict_apply hm, hset, Real.volume_Ico]
  rw [ENNReal.toReal_ofReal (by rw [← sub_div]; apply div_nonneg <;> linarith)]
  field_simp
  ring

theorem spins_eval (r : ℕ) : MeasurePreserving (fun ω : ℕ → ℕ → ℝ => ω r) spins (Measure.infinitePi fun _ => spin) :=
  measurePreserving_eval_infinitePi (fun _ => Measure.infinitePi fun _ => spin) r

theorem spins_one (r j : ℕ) : MeasurePreserving (fun ω : ℕ → ℕ → ℝ => ω r j) spins spin :=
  (measurePreserving_eval_infinitePi (fun _ => spin) j).comp (spins_eval r)

/-- fair draws for every number of data -/
theorem spins_fair (N : ℕ) : FairDraws spins N fun r j ω => pick N (ω r j) := by
  refine ⟨?_, ?_, fun j i hi => ?_⟩
  · have h : SameDays spins (fun r ω => ω r : ℕ → (ℕ → ℕ → ℝ) → ℕ → ℝ) := by
      refine ⟨fun d => measurable_pi_apply d, ?_, fun d => ⟨(measurable_pi_apply d).aemeasurable,
        (measurable_pi_apply 0).aemeasurable, ?_⟩⟩
      · have := iIndepFun_infinitePi (P := fun _ : ℕ => Measure.infinitePi fun _ : ℕ => spin) (X := fun _ (x : ℕ → ℝ) => x)
          fun _ => measurable_id
        exact fun d e hde => this.indepFun hde
      · rw [(spins_eval d).map_eq, (spins_eval 0).map_eq]
    exact repeats_comp h (g := fun x j => pick N (x j))
      (measurable_pi_lambda _ fun j => (measurable_pick N).comp (measurable_pi_apply j))
  · have h : iIndepFun (fun j (ω : ℕ → ℕ → ℝ) => ω 0 j) spins := by
      rw [iIndepFun_iff_map_fun_eq_infinitePi_map fun j => (spins_one 0 j).measurable]
      simp_rw [fun j => (spins_one 0 j).map_eq]
      exact (spins_eval 0).map_eq
    exact h.comp (fun _ => pick N) fun _ => measurable_pick N
  · have := (spins_one 0 j).measureReal_preimage (s := {u | pick N u % N = i})
      ((measurable_pick N) (MeasurableSet.of_discrete (s := {m : ℕ | m % N = i}))).nullMeasurableSet
    rw [pick_fair hi] at this
    exact this

/-- there is a normal quantile for every confidence -/
theorem quantile_exists {conf : ℝ} (h0 : 0 < conf) (h1 : conf < 1) : ∃ z, Phi z = (1 + conf) / 2 := by
  have hz : Phi 0 = 1 / 2 := by
    have b := Phi_neg 0
    rw [neg_zero] at b
    linarith
  obtain ⟨b, hb, hb0⟩ := ((tendsto_Phi.eventually_const_le (show (1 + conf) / 2 < 1 by linarith)).and
    (eventually_ge_atTop 0)).exists
  obtain ⟨z, -, e⟩ := intermediate_value_Icc hb0 continuous_Phi.continuousOn
    (show (1 + conf) / 2 ∈ Set.Icc (Phi 0) (Phi b) from ⟨by rw [hz]; linarith, hb⟩)
  exact ⟨z, e⟩

/-- `boot_vec` with as many draws as data holds the expectation 0 of normal numbers in about 90 percent of all archives; with
four times as many draws in less than that. -/
example : ∃ z, Phi z = (1 + 9 / 10 : ℝ) / 2 ∧
    LongRunProb (normalDays.prod spins) (fun N R => {p | Covers 0
      (bootVec (firstDays (fun t ω => ω t) N p.1) N R (9 / 10) false fun r j => pick N (p.2 r j))}) (9 / 10) ∧
    LongRunProb (normalDays.prod spins) (fun N R => {p | Covers 0
      (bootVec (firstDays (fun t ω => ω t) N p.1) (4 * N) R (9 / 10) false fun r j => pick N (p.2 r j))})
      (1 - 2 * Phi (-(z / 2))) ∧ 1 - 2 * Phi (-(z / 2)) < 9 / 10 := by
  obtain ⟨z, hz⟩ := quantile_exists (conf := 9 / 10) (by norm_num) (by norm_num)
  have hs : √(4 : ℝ) = 2 := by
    rw [show (4 : ℝ) = 2 ^ 2 by norm_num, Real.sqrt_sq (by norm_num)]
  have hv : 0 < Var[fun ω : ℕ → ℝ => ω 0; normalDays] := by rw [normalDays_var]; exact one_pos
  refine ⟨z, hz, ?_, ?_, ?_⟩
  · have := C136_nominal (skip := false) (Z := fun t (ω : ℕ → ℝ) => ω t) (fun t => measurable_pi_apply t) normalDays_indep
      normalDays_same normalDays_memLp hv (fun N _ => spins_fair N) (by norm_num) (by norm_num) hz
    rwa [normalDays_mean] at this
  · have hn : Tendsto (fun N : ℕ => ((4 * N : ℕ) : ℝ) / N) atTop (𝓝 4) := by
      refine tendsto_const_nhds.congr' ?_
      filter_upwards [eventually_gt_atTop 0] with N hN
      have : (N : ℝ) ≠ 0 := by exact_mod_cast hN.ne'
      push_cast
      field_simp
    have := C136_boot_vec (skip := false) (Z := fun t (ω : ℕ → ℝ) => ω t) (fun t => measurable_pi_apply t) normalDays_indep
      normalDays_same normalDays_memLp hv (fun N _ => spins_fair N) (by norm_num) hn (by norm_num) (by norm_num) hz
    rwa [normalDays_mean, hs] at this
  · have := (C136_draws (c := 4) (by norm_num) hz (by norm_num)).2 (by norm_num)
    rwa [hs] at this

/-- forecasts of the observation 0 -/
noncomputable def aimX (N : ℕ) (ω : ℕ → ℝ) : DetX ℝ := ⟨ofFn [N] fun i => some (ω (i.headD 0)), ofFn [N] fun _ => some 0⟩

/-- their verifiers, with as many draws as days -/
noncomputable def aimO (N : ℕ) (ω : ℕ → ℝ) : Obj (DetX ℝ) := ⟨.none, .int N, .none, some true, aimX N ω⟩

/-- settings with `R` repeats, confidence 0.9 and the numbers of the spins -/
noncomputable def aimCfg (N R : ℕ) (u : ℕ → ℕ → ℝ) : Cfg ℝ :=
  { cfgR with reps := R, conf := 9 / 10, rng := fun _ _ _ r j => pick N (u r j) }

/-- `error()` returns an interval that holds the expected error 0 in about 90 percent of all archives -/
example : (∀ N ω, 0 < N → ∃ w, construct (detPrims cfgR embBoth) noMids (aimO N ω) world0 = (.ok (aimO N ω), w)) ∧
    LongRunProb (normalDays.prod spins) (fun N R => {p | Returns 0 []
      (result .determ bothInfo (detPrims (aimCfg N R p.2) embBoth) noMids (.slot .error) (unsaved (aimO N p.1)) world0)})
      (9 / 10) := by
  refine ⟨?_, ?_⟩
  · intro N ω hN
    exact ⟨world0, by simp [construct, validate, validateAxis, validateSaving, aimO, aimX, detPrims]; rfl⟩
  obtain ⟨z, hz⟩ := quantile_exists (conf := 9 / 10) (by norm_num) (by norm_num)
  have hv : 0 < Var[fun ω : ℕ → ℝ => ω 0; normalDays] := by rw [normalDays_var]; exact one_pos
  have hn : Tendsto (fun N : ℕ => ((id N : ℕ) : ℝ) / N) atTop (𝓝 1) := by
    refine tendsto_const_nhds.congr' ?_
    filter_upwards [eventually_gt_atTop 0] with N hN
    have : (N : ℝ) ≠ 0 := by exact_mod_cast hN.ne'
    exact (div_self this).symm
  have := C136_errors (C := .determ) (I := bothInfo) (mids := noMids) (obs := DetX.o) (emb := embBoth)
    (Z := fun t (ω : ℕ → ℝ) => ω t) (fun t => measurable_pi_apply t) normalDays_indep
    normalDays_same normalDays_memLp hv (fun N _ => spins_fair N) one_pos hn (by norm_num) (by norm_num) hz
    (cf := aimCfg) (Pr := fun N R u => detPrims (aimCfg N R u) embBoth) (fun N R u => shared_det _ _)
    (fun _ _ _ => ⟨rfl, rfl⟩) (o := aimO) (fun _ _ => rfl) (axes := none) (fun _ _ => rfl)
    (w := fun _ _ _ _ => world0) (f := fun N ω => (aimX N ω).f) (fun N R ω u => ⟨world0, fDeterm_det _ _⟩)
    (fun _ _ => rfl) (fun _ _ => trivial) (k := []) (fun _ _ _ => List.Forall₂.nil) (s := .error) (.inl ⟨rfl, rfl⟩)
    (fun N ω hN => by
      have e : fiberIdx [N] [0] [] = (List.range N).map fun d => [d] :=
        fiberIdx_days (s := []) (t := 0) (k := []) le_rfl List.Forall₂.nil N
      change ((fiberIdx [N] [0] []).map fun i => ((aimX N ω).f.get i, (aimX N ω).o.get i)).map _ = _
      rw [e, List.map_map, List.map_map]
      refine List.map_congr_left fun d hd => ?_
      have hd' : InB [N] [d] := List.Forall₂.cons (by simpa using hd) List.Forall₂.nil
      simp [Function.comp, aimX, get_ofFn _ hd', both])
    (fun _ _ _ _ _ _ _ => rfl)
  rwa [normalDays_mean, nominal_value hz] at this

end Props
