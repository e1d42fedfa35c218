import Verif.Props.BrierChance
import Verif.Props.PitUniformCase
import Verif.Props.RandomEnsCase

/-! # Concrete cases for C120 -/

namespace Props
open Np NDArr Model Spec Lemmas MeasureTheory

/-- Normal observations, with mean `a` at the first position: the expected `brier(over=2)` of the verifier that announces
mean 1 there is the least possible one exactly if `a` is 1. -/
example (a : ℝ) : ∃ o r : ℝ → _, (∀ ω, ∃ w, construct (gaussPrims caseCfg (fnsPit 0) embReal) noMids
      (probObj (pitX (gaussX false) false (a + 1 * ω) (3 + 2 * ω))) world0 = (.ok (o ω), w)) ∧
    (∀ ω, result .gaussian realInfo (gaussPrims caseCfg (fnsPit 0) embReal) noMids (.slot (.brier (some 2) none))
      (unsaved (o ω)) world0 = .ok (some (.num (r ω)))) ∧
    ∃ S : ℝ → ℝ, (∀ ω, (r ω).get [] = some (S ω)) ∧
      (∫ ω, S ω ∂stdNormal = avg [normalCdf a 1 2 * (1 - normalCdf a 1 2), normalCdf 3 2 2 * (1 - normalCdf 3 2 2)] ↔
        a = 1) := by
  have hb : ∀ ω : ℝ, ∃ o w, construct (gaussPrims caseCfg (fnsPit 0) embReal) noMids
      (probObj (pitX (gaussX false) false (a + 1 * ω) (3 + 2 * ω))) world0 = (.ok o, w) := fun ω => ⟨_, _, rfl⟩
  choose o w h using hb
  obtain ⟨r, r1, -, r3⟩ := C120_gauss (I := realInfo) (P := stdNormal) (sh := [2]) (tr := false)
    (w1 := fun _ => world0) h realLib_exact realLib_unit (.inl ⟨rfl, by simp⟩)
    (Y := fun i ω => if i = [0] then a + 1 * ω else 3 + 2 * ω)
    (G := fun i => if i = [0] then normalCdf a 1 else normalCdf 3 2)
    { shape := fun _ => rfl
      value := fun i hi ω => by rcases two_positions hi with rfl | rfl <;> rfl
      meas := fun i hi => by rcases two_positions hi with rfl | rfl <;> simp <;> fun_prop
      law := fun i hi x => by
        rcases two_positions hi with rfl | rfl
        · exact stdNormal_law a one_pos x
        · exact stdNormal_law 3 two_pos x }
    (fun _ => rfl)
    (mu := ⟨[2], [some 1, some 3], rfl⟩) (sigma := ⟨[2], [some 1, some 2], rfl⟩) (fun _ => ⟨rfl, rfl⟩) (fun _ => ⟨rfl, rfl⟩)
    (m := fun i => if i = [0] then 1 else 3) (sd := fun i => if i = [0] then 1 else 2)
    (fun i hi => by rcases two_positions hi with rfl | rfl <;> simp [NDArr.get, ravel])
    (a := (2 : ℝ)) (by simp [Printable, realInfo]) rfl trivial (τ := fun _ => 2) (fun _ _ => rfl) (fun _ => rfl)
    (av := .none) (fun _ => rfl) trivial (by decide) true
  obtain ⟨S, s1, s2⟩ := r3 [] (by decide)
  refine ⟨o, r, fun ω => ⟨w ω, h ω⟩, r1, S, s1, ?_⟩
  have hf : fiberIdx [2] (nums [2].length (axesOf .none)) [] = [[0], [1]] := by decide
  have := s2.over rfl
  rw [hf] at this
  simp only [List.map_cons, List.map_nil, List.mem_cons, List.not_mem_nil, or_false, forall_eq_or_imp, forall_eq, if_true,
    show ([1] : List Nat) = [0] ↔ False by decide, if_false, gaussLaw, Bool.false_eq_true, and_true] at this
  rw [this]
  simp only [normalCdf, div_one]
  constructor
  · intro h
    have := strictMono_Phi.injective h
    linarith
  · rintro rfl; rfl

/-- dry with probability 1/2, else with mean and standard deviation 1, at both positions -/
noncomputable def dryX : ProbX ℝ :=
  { hurdleX with
    f := [("pop", ⟨[2], [some (1 / 2), some (1 / 2)], rfl⟩), ("mu", ⟨[2], [some 1, some 1], rfl⟩),
      ("sigma", ⟨[2], [some 1, some 1], rfl⟩)] }

/-- Observations that follow the announced hurdle distribution: `brier(over=0)` gives it the least possible expected score,
`brier(below=0)` does not, since dry observations are not below zero but count for the announced probability. -/
example (isOver : Bool) : ∃ o r : ℝ → _, (∀ ω, ∃ w, construct (hurdlePrims caseCfg (fnsPit 0) embReal id) noMids
      (probObj (pitX dryX false (max (ω - Real.log 2) 0) (max (ω - Real.log 2) 0))) world0 = (.ok (o ω), w)) ∧
    (∀ ω, result .hurdle realInfo (hurdlePrims caseCfg (fnsPit 0) embReal id) noMids
      (.slot (.brier (overArg isOver 0) (belowArg isOver 0))) (unsaved (o ω)) world0 = .ok (some (.num (r ω)))) ∧
    ∃ S : ℝ → ℝ, (∀ ω, (r ω).get [] = some (S ω)) ∧ ∫ ω, S ω ∂expLaw = 1 / 4 := by
  have hb : ∀ ω : ℝ, ∃ o w, construct (hurdlePrims caseCfg (fnsPit 0) embReal id) noMids
      (probObj (pitX dryX false (max (ω - Real.log 2) 0) (max (ω - Real.log 2) 0))) world0 = (.ok o, w) :=
    fun ω => ⟨_, _, rfl⟩
  choose o w h using hb
  have hm : Measurable fun ω : ℝ => max (ω - Real.log 2) 0 := by fun_prop
  obtain ⟨r, r1, -, r3⟩ := C120_hurdle (I := realInfo) (P := expLaw) (sh := [2])
    (w1 := fun _ => world0) h realLib_exact realLib_unit (.inl ⟨rfl, by simp⟩)
    (Y := fun _ ω => max (ω - Real.log 2) 0) (G := fun _ => hurdleLaw (1 / 2) 1 1)
    { shape := fun _ => rfl
      value := fun i hi ω => by rcases two_positions hi with rfl | rfl <;> rfl
      meas := fun i hi => hm
      law := fun i hi x => expLaw_hurdle x }
    (pop := ⟨[2], [some (1 / 2), some (1 / 2)], rfl⟩) (mu := ⟨[2], [some 1, some 1], rfl⟩)
    (sigma := ⟨[2], [some 1, some 1], rfl⟩) (fun _ => ⟨rfl, rfl⟩) (fun _ => ⟨rfl, rfl⟩) (fun _ => ⟨rfl, rfl⟩)
    (p := fun _ => 1 / 2) (m := fun _ => 1) (sd := fun _ => 1)
    (fun i hi => by rcases two_positions hi with rfl | rfl <;> norm_num [NDArr.get, ravel])
    (a := (0 : ℝ)) (by simp [Printable, realInfo]) rfl trivial (τ := fun _ => 0) (fun _ _ => ⟨rfl, le_rfl⟩) (fun _ => rfl)
    (av := .none) (fun _ => rfl) trivial (by decide) isOver
  obtain ⟨S, s1, s2⟩ := r3 [] (by decide)
  refine ⟨o, r, fun ω => ⟨w ω, h ω⟩, r1, S, s1, ?_⟩
  have h0 : hurdleLaw (1 / 2) 1 1 0 = 1 / 2 := by
    rw [hurdleLaw, if_neg (lt_irrefl _), zero_div, gammaCdf_of_nonpos le_rfl]
    norm_num
  have hf : fiberIdx [2] (nums [2].length (axesOf .none)) [] = [[0], [1]] := by decide
  rw [s2.score.mean, hf]
  cases isOver with
  | true =>
    rw [eventChance_over hm (fun x => expLaw_hurdle x), h0]
    norm_num [avg, beyondProb, h0]
  | false =>
    have : eventChance expLaw false 0 (fun ω => max (ω - Real.log 2) 0) = 0 := by
      simp [eventChance, Beyond]
    rw [this]
    norm_num [avg, beyondProb, h0]

/-- The gamma class with shift -1 at the first position and 1 at the second; observations that follow the announced
distributions, threshold 2: the expected `brier(over=2)` is the least possible one. -/
example : ∃ o r : ℝ → _, (∀ ω, ∃ w, construct (gammaPrims caseCfg (fnsPit 0) embReal) noMids
      (probObj (pitX { gammaX false with f := [("mu", ⟨[2], [some 0, some 3], rfl⟩), ("sigma", ⟨[2], [some 1, some 2], rfl⟩),
      ("shift", ⟨[2], [some (-1), some 1], rfl⟩), ("unshifted_mu", ⟨[2], [some 1, some 2], rfl⟩)] } false
        (max (1 * ω + -1) 0) (max (2 * ω + 1) 0))) world0 = (.ok (o ω), w)) ∧
    (∀ ω, result .gamma realInfo (gammaPrims caseCfg (fnsPit 0) embReal) noMids (.slot (.brier (some 2) none))
      (unsaved (o ω)) world0 = .ok (some (.num (r ω)))) ∧
    ∃ S : ℝ → ℝ, (∀ ω, (r ω).get [] = some (S ω)) ∧
      ∫ ω, S ω ∂expLaw = avg [censoredGammaCdf 1 1 (-1) 2 * (1 - censoredGammaCdf 1 1 (-1) 2),
        censoredGammaCdf 2 2 1 2 * (1 - censoredGammaCdf 2 2 1 2)] := by
  have hb : ∀ ω : ℝ, ∃ o w, construct (gammaPrims caseCfg (fnsPit 0) embReal) noMids
      (probObj (pitX { gammaX false with f := [("mu", ⟨[2], [some 0, some 3], rfl⟩), ("sigma", ⟨[2], [some 1, some 2], rfl⟩),
      ("shift", ⟨[2], [some (-1), some 1], rfl⟩), ("unshifted_mu", ⟨[2], [some 1, some 2], rfl⟩)] } false
        (max (1 * ω + -1) 0) (max (2 * ω + 1) 0))) world0 = (.ok o, w) := fun ω => ⟨_, _, rfl⟩
  choose o w h using hb
  obtain ⟨r, r1, -, r3⟩ := C120_gamma (I := realInfo) (P := expLaw) (sh := [2])
    (w1 := fun _ => world0) h realLib_exact realLib_unit (.inl ⟨rfl, by simp⟩)
    (Y := fun i ω => if i = [0] then max (1 * ω + -1) 0 else max (2 * ω + 1) 0)
    (G := fun i => if i = [0] then censoredGammaCdf 1 1 (-1) else censoredGammaCdf 2 2 1)
    { shape := fun _ => rfl
      value := fun i hi ω => by rcases two_positions hi with rfl | rfl <;> rfl
      meas := fun i hi => by rcases two_positions hi with rfl | rfl <;> simp <;> fun_prop
      law := fun i hi x => by
        rcases two_positions hi with rfl | rfl
        · exact expLaw_law one_pos x
        · exact expLaw_law two_pos x }
    (fun _ => rfl)
    (umu := ⟨[2], [some 1, some 2], rfl⟩) (sigma := ⟨[2], [some 1, some 2], rfl⟩) (shift := ⟨[2], [some (-1), some 1], rfl⟩)
    (fun _ => ⟨rfl, rfl⟩) (fun _ => ⟨rfl, rfl⟩) (fun _ => ⟨rfl, rfl⟩)
    (m := fun i => if i = [0] then 1 else 2) (sd := fun i => if i = [0] then 1 else 2) (δ := fun i => if i = [0] then -1 else 1)
    (fun i hi => by rcases two_positions hi with rfl | rfl <;> simp [NDArr.get, ravel])
    (a := (2 : ℝ)) (by simp [Printable, realInfo]) rfl trivial (τ := fun _ => 2) (fun _ _ => ⟨rfl, two_pos.le⟩) (fun _ => rfl)
    (av := .none) (fun _ => rfl) trivial (by decide) true
  obtain ⟨S, s1, s2⟩ := r3 [] (by decide)
  refine ⟨o, r, fun ω => ⟨w ω, h ω⟩, r1, S, s1, ?_⟩
  have hf : fiberIdx [2] (nums [2].length (axesOf .none)) [] = [[0], [1]] := by decide
  have := (s2.over rfl).2 (by rw [hf]; simp)
  rw [this, hf]
  rfl

/-- two members and the observation drawn independently from normal distributions -/
example : ∃ o r : (Fin 3 → ℝ) → _,
    (∀ ω, ∃ w, construct (ensPrims cfgR embReal) noMids (drawnE ω) world0 = (.ok (o ω), w)) ∧
    (∀ ω, result .ensemble realInfo (ensPrims cfgR embReal) noMids (.slot (.brier (some 0) none)) (unsaved (o ω)) world0 =
      .ok (some (.num (r ω)))) ∧
    ∃ S : (Fin 3 → ℝ) → ℝ, (∀ ω, (r ω).get [] = some (S ω)) ∧ Integrable S threeNormal := by
  choose o w h hax using drawnE_built
  obtain ⟨r, r1, -, r3⟩ := C120_ens_random (I := realInfo) (w1 := fun _ => world0) h (fun _ => rfl) rfl hax two_pos drawn_case
    (a := (0 : ℝ)) (by simp [Printable, realInfo]) rfl trivial (τ := fun _ => 0) (fun _ _ => rfl)
    (av := .none) (fun _ => rfl) trivial (by decide) true
  obtain ⟨S, s1, s2, -⟩ := r3 [] (by decide)
  exact ⟨o, r, fun ω => ⟨w ω, h ω⟩, r1, S, s1, s2⟩

/-- members 1 and 2 at the first position, 5 and 6 at the second; the observation at each is a standard normal number -/
noncomputable def fixedE (ω : ℝ) : Obj (EnsX ℝ) :=
  { ensR with ext := { ensR.ext with o := ⟨[2], [some (0 + 1 * ω), some (0 + 1 * ω)], rfl⟩ } }

theorem fixedE_built (ω : ℝ) : ∃ o w', construct (ensPrims cfgR embReal) noMids (fixedE ω) world0 = (.ok o, w') ∧
    o.ext.axis = some 0 := ⟨_, _, rfl, rfl⟩

/-- The expected `brier(below=1)`: half of the members count at the first position, none at the second. -/
example : ∃ o r : ℝ → _,
    (∀ ω, ∃ w, construct (ensPrims cfgR embReal) noMids (fixedE ω) world0 = (.ok (o ω), w)) ∧
    (∀ ω, result .ensemble realInfo (ensPrims cfgR embReal) noMids (.slot (.brier none (some 1))) (unsaved (o ω)) world0 =
      .ok (some (.num (r ω)))) ∧
    ∃ S : ℝ → ℝ, (∀ ω, (r ω).get [] = some (S ω)) ∧ ∃ q, ∫ ω, S ω ∂stdNormal =
      ((1 / 2 - q) ^ 2 + q * (1 - q) + ((0 - q) ^ 2 + q * (1 - q))) / 2 := by
  choose o w h hax using fixedE_built
  obtain ⟨r, r1, -, r3⟩ := C120_ens (I := realInfo) (P := stdNormal) (sh := [2]) (w1 := fun _ => world0) h (fun _ => rfl) rfl hax
    (Y := fun _ ω => 0 + 1 * ω) (G := fun _ => normalCdf 0 1)
    { shape := fun _ => rfl
      value := fun i hi ω => by rcases two_positions hi with rfl | rfl <;> rfl
      meas := fun i hi => by fun_prop
      law := fun i hi x => stdNormal_law 0 one_pos x }
    (M := fun i => if i = [0] then [1, 2] else [5, 6])
    (fun ω i hi => by rcases two_positions hi with rfl | rfl <;> exact ⟨rfl, by simp⟩)
    (a := (1 : ℝ)) (by simp [Printable, realInfo]) rfl trivial (τ := fun _ => 1) (fun _ _ => rfl)
    (av := .none) (fun _ => rfl) trivial (by decide) false
  obtain ⟨S, s1, s2⟩ := r3 [] (by decide)
  refine ⟨o, r, fun ω => ⟨w ω, h ω⟩, r1, S, s1, eventChance stdNormal false 1 fun ω => 0 + 1 * ω, ?_⟩
  have hf : fiberIdx [2] (nums [2].length (axesOf .none)) [] = [[0], [1]] := by decide
  rw [s2.mean, hf]
  norm_num [avg, indicator, Counts]

end Props
