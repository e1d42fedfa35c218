import Verif.Props.Unaveraged

/-!
# C139, C136, C138: cases
-/

namespace Props
open Np NDArr Model Spec Lemmas MeasureTheory ProbabilityTheory Filter Topology

/-- the errors of the forecasts of 0 are the forecasts -/
theorem aim_plain (N : ℕ) (ω : ℕ → ℝ) (c : Cfg ℝ) {o : Obj (DetX ℝ)} (ho : o.ext = aimX N ω) (w : World (PyVal ℝ)) :
    result .determ bothInfo (detPrims c embBoth) noMids (.slot .error) (unsaved (plain o)) w =
      .ok (some (.num (aimX N ω).f)) := by
  have hf : ∃ w0, result .determ bothInfo (detPrims c embBoth) noMids (.slot .fDeterm) (unsaved o) w0 =
      .ok (some (.num (aimX N ω).f)) := ⟨world0, by rw [← ho]; exact fDeterm_det _ _⟩
  obtain ⟨w0, hf⟩ := hf
  obtain ⟨e, _, _, he, _, _, ⟨se, _⟩, hfib⟩ := error_bodies (shared_det c embBoth) hf (by rw [ho]; rfl)
  obtain ⟨nm, hn⟩ := fixed_ok bothInfo (some "error".toList)
  obtain ⟨m, h1, h2, h3⟩ := plain_of_body (mids := noMids) (shared_det c embBoth) Averaged.error hn (he w)
  rw [h1]
  congr 3
  have hs : m.shape = (aimX N ω).f.shape := h2.trans se
  refine NDArr.ext_get hs fun i hi => ?_
  rw [h3 i hi]
  have e0 := (hfib [] i).1
  have hi' : InB (aimX N ω).f.shape i := by rw [← hs]; exact hi
  rw [fiber_none (by rw [se]; exact hi'), pairsAt, fiberIdx_none hi', ho] at e0
  simp only [List.map_cons, List.map_nil, List.cons.injEq, and_true] at e0
  rw [e0]
  have g1 : (aimX N ω).f.get i = some (ω (i.headD 0)) := get_ofFn _ hi'
  have g2 : (aimX N ω).o.get i = some 0 := get_ofFn _ hi'
  rw [g1, g2]
  simp [both]

/-- C139: the mean of the errors -/
example (N : ℕ) (ω : ℕ → ℝ) : ∃ r, result .determ bothInfo (detPrims cfgR embBoth) noMids (.slot .error)
    (unsaved (withAvg (aimO (N + 1) ω) .none .none)) world0 = .ok (some (.num r)) ∧
    IsAvg cfgR.skipNan (fiber (aimX (N + 1) ω).f [0] []) (r.get []) := by
  obtain ⟨m, e, h⟩ := C139_average (shared_det cfgR embBoth) Averaged.error
    (aim_plain (N + 1) ω cfgR (o := aimO (N + 1) ω) rfl world0)
  cases e
  obtain ⟨r, r1, r2, r3⟩ := h (a := .none) rfl trivial
  exact ⟨r, r1, r3 [] (by rw [r2]; exact List.Forall₂.nil)⟩

/-- C139: two forecasts, resampled three times; with `avg_axis=()` the squared errors of the days -/
example :
    let o : Obj (DetX ℚ) := ⟨.none, .none, .none, some true, ⟨⟨[2], [some 3, some 0], rfl⟩, ⟨[2], [some 1, some 1], rfl⟩⟩⟩
    (Model.numOf (result .determ intInfo detP noMids (.slot .sqError) (unsaved (withAvg o .none (.int 3))) world0)).map
      Prod.fst = some [3] ∧
    Model.numOf (result .determ intInfo detP noMids (.slot .sqError) (unsaved (plain o)) world0) =
      some ([2], [some 4, some 1]) := by
  decide +kernel

/-- C136 for the numbers returned with `avg_axis=()` -/
example : LongRunProb (normalDays.prod spins) (fun N R => {p | Returns 0 []
      (result .determ bothInfo (detPrims (aimCfg N R p.2) embBoth) noMids (.slot .error) (unsaved (aimO N p.1)) world0)})
      (9 / 10) := by
  obtain ⟨z, hz⟩ := quantile_exists (conf := 9 / 10) (by norm_num) (by norm_num)
  have hv : 0 < Var[fun ω : ℕ → ℝ => ω 0; normalDays] := by rw [normalDays_var]; exact one_pos
  have hn : Tendsto (fun N : ℕ => ((id N : ℕ) : ℝ) / N) atTop (𝓝 1) := by
    refine tendsto_const_nhds.congr' ?_
    filter_upwards [eventually_gt_atTop 0] with N hN
    have : (N : ℝ) ≠ 0 := by exact_mod_cast hN.ne'
    exact (div_self this).symm
  have := C136_metrics (C := .determ) (I := bothInfo) (mids := noMids) (obs := DetX.o) (emb := embBoth)
    (Z := fun t (ω : ℕ → ℝ) => ω t) (fun t => measurable_pi_apply t) normalDays_indep
    normalDays_same normalDays_memLp hv (fun N _ => spins_fair N) one_pos hn (by norm_num) (by norm_num) hz
    (cf := aimCfg) (Pr := fun N R u => detPrims (aimCfg N R u) embBoth) (fun N R u => shared_det _ _)
    (fun _ _ _ => ⟨rfl, rfl⟩) (o := aimO) (fun _ _ => rfl) (axes := none) (fun _ _ => rfl)
    (w := fun _ _ _ _ => world0) (m := fun N ω => (aimX N ω).f) Averaged.error
    (fun N R ω u => aim_plain N ω _ rfl _) (fun _ _ => trivial) (k := []) (fun _ _ _ => List.Forall₂.nil)
    (fun N ω hN => by
      have e : fiberIdx [N] [0] [] = (List.range N).map fun d => [d] :=
        fiberIdx_days (s := []) (t := 0) (k := []) le_rfl List.Forall₂.nil N
      change (fiberIdx [N] [0] []).map (aimX N ω).f.get = _
      rw [e, List.map_map]
      refine List.map_congr_left fun d hd => ?_
      have hd' : InB [N] [d] := List.Forall₂.cons (by simpa using hd) List.Forall₂.nil
      simp [Function.comp, aimX, get_ofFn _ hd'])
    (fun _ _ _ _ _ _ _ => rfl)
  rwa [normalDays_mean, nominal_value hz] at this

/-- C138 for the numbers returned with `avg_axis=()` -/
example (μ : ℝ) (h1 : 1 / 20 < Phi μ) (h2 : Phi μ < 19 / 20) :
    LongRunProb (normalDays.prod spins) (fun N R => {p | Returns μ []
      (result .determ bothInfo (detPrims (aimCfg N R p.2) embBoth) noMids (.slot .error) (unsaved (oneO N p.1)) world0)})
      1 := by
  have main := C138_metrics (C := .determ) (I := bothInfo) (mids := noMids) (obs := DetX.o) (emb := embBoth) (n := 1) (μ := μ)
    (Z := fun t (ω : ℕ → ℝ) => ω t) (conf := 9 / 10) (fun t => measurable_pi_apply t) normalDays_indep
    normalDays_same (normalDays_memLp.integrable (by norm_num)) (fun N _ => spins_fair N) one_pos (by norm_num) (by norm_num)
    (cf := aimCfg) (Pr := fun N R u => detPrims (aimCfg N R u) embBoth) (fun N R u => shared_det _ _)
    (fun _ _ _ => ⟨rfl, rfl⟩) (o := oneO) (fun _ _ => rfl) (axes := none) (fun _ _ => rfl)
    (w := fun _ _ _ _ => world0) (m := fun N ω => (aimX N ω).f) Averaged.error
    (fun N R ω u => aim_plain N ω _ rfl _) (fun _ _ => trivial) (k := []) (fun _ _ _ => List.Forall₂.nil)
    (fun N ω hN => by
      have e : fiberIdx [N] [0] [] = (List.range N).map fun d => [d] :=
        fiberIdx_days (s := []) (t := 0) (k := []) le_rfl List.Forall₂.nil N
      change (fiberIdx [N] [0] []).map (aimX N ω).f.get = _
      rw [e, List.map_map]
      refine List.map_congr_left fun d hd => ?_
      have hd' : InB [N] [d] := List.Forall₂.cons (by simpa using hd) List.Forall₂.nil
      simp [Function.comp, aimX, get_ofFn _ hd'])
    (fun _ _ _ _ _ _ _ => rfl)
  rw [day_below, day_above, day_from] at main
  exact main.1 (by linarith) (by linarith)

end Props
