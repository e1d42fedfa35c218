import Verif.Props.RelChance
import Verif.Props.BrierChanceCase

/-! # Concrete cases for C121 -/

namespace Props
open Np NDArr Model Spec Lemmas MeasureTheory

/-- arguments: thresholds and numbers of bins -/
noncomputable def embBoth : ℝ ⊕ ℕ → Arg ℝ
  | .inl t => .thr (.scalar (some t))
  | .inr n => .num n

def bothInfo : ArgInfo (ℝ ⊕ ℕ) := ⟨fun _ => [], fun _ => false, fun _ => false, fun _ => 1, fun _ => none, fun _ => none⟩

/-- one bin, two positions: normal observations with mean `a` at the first position, announced mean 1. The only point of
the curve is on the diagonal on average exactly if `a` is 1. -/
example (a : ℝ) : ∃ o s : ℝ → _, (∀ ω, ∃ w, construct (gaussPrims caseCfg (fnsPit 0) embBoth) noMids
      (probObj (pitX (gaussX false) false (a + 1 * ω) (3 + 2 * ω))) world0 = (.ok (o ω), w)) ∧
    (∀ ω, result .gaussian bothInfo (gaussPrims caseCfg (fnsPit 0) embBoth) noMids
      (.slot (.reliability (.inr 1) (some (.inl 2)) none)) (unsaved (o ω)) world0 = .ok (some (.rel (.slice (s ω))))) ∧
    ∃ (x : ℝ) (T : ℝ → ℝ), (∀ ω, (s ω).probPred = [some x] ∧ (s ω).probTrue = [some (T ω)]) ∧
      (∫ ω, T ω ∂stdNormal = x ↔ a = 1) := by
  have hb : ∀ ω : ℝ, ∃ o w, construct (gaussPrims caseCfg (fnsPit 0) embBoth) noMids
      (probObj (pitX (gaussX false) false (a + 1 * ω) (3 + 2 * ω))) world0 = (.ok o, w) := fun ω => ⟨_, _, rfl⟩
  choose o w h using hb
  have hlaw1 : ∀ x, stdNormal.real {ω : ℝ | a + 1 * ω ≤ x} = normalCdf a 1 x := stdNormal_law a one_pos
  have hlaw2 : ∀ x, stdNormal.real {ω : ℝ | 3 + 2 * ω ≤ x} = normalCdf 3 2 x := stdNormal_law 3 two_pos
  obtain ⟨s, bs, pp, pt, pc, r1, r2, r3⟩ := C121_gauss (I := bothInfo) (P := stdNormal) (sh := [2]) (tr := false)
    (w1 := fun _ => world0) h realLib_exact realLib_unit (.inl ⟨rfl, by simp⟩)
    (Y := fun i ω => if i = [0] then a + 1 * ω else 3 + 2 * ω)
    (G := fun i => if i = [0] then normalCdf a 1 else normalCdf 3 2)
    { shape := fun _ => rfl
      value := fun i hi ω => by rcases two_positions hi with rfl | rfl <;> rfl
      meas := fun i hi => by rcases two_positions hi with rfl | rfl <;> simp <;> fun_prop
      law := fun i hi x => by
        rcases two_positions hi with rfl | rfl
        · exact hlaw1 x
        · exact hlaw2 x }
    (fun _ => rfl)
    (mu := ⟨[2], [some 1, some 3], rfl⟩) (sigma := ⟨[2], [some 1, some 2], rfl⟩) (fun _ => ⟨rfl, rfl⟩) (fun _ => ⟨rfl, rfl⟩)
    (m := fun i => if i = [0] then 1 else 3) (sd := fun i => if i = [0] then 1 else 2)
    (fun i hi => by rcases two_positions hi with rfl | rfl <;> simp [NDArr.get, ravel])
    (nb := .inr 1) (nbins := 1) rfl (by simp [Printable, bothInfo]) le_rfl
    (a := .inl 2) (by simp [Printable, bothInfo]) rfl trivial (τ := fun _ => 2) (fun _ _ => rfl) (fun _ => rfl)
    (av := .none) (fun _ => rfl) trivial true
  have hf : fiberIdx [2] (nums [2].length (axesOf .none)) [] = [[0], [1]] := by decide
  rw [hf] at r3
  have hbin : ∀ p : List Nat → ℝ, (∀ i, 0 ≤ p i ∧ p i ≤ 1) → binPositions 1 0 p [[0], [1]] = [[0], [1]] := by
    intro p hp
    unfold binPositions
    rw [List.filter_eq_self]
    intro i _
    obtain ⟨h0, h1⟩ := hp i
    rw [decide_eq_true_eq, relEdge, relEdge]
    constructor
    · simpa using h0
    · norm_num
      linarith
  have hq := hbin (fun i => beyondProb true (gaussLaw false (if i = [0] then 1 else 3) (if i = [0] then 1 else 2) 2)) fun i =>
    beyondProb_unit ((unit_normal _ _).lo _) ((unit_normal _ _).hi _)
  have hbs : bs = [0] := by
    have h1 := r3.bins
    have h2 := r3.increasing
    have h0 : 0 ∈ bs := (h1 0).2 ⟨one_pos, by rw [hq]; simp⟩
    have hall : ∀ b ∈ bs, b = 0 := fun b hb => by have := ((h1 b).1 hb).1; omega
    cases bs with
    | nil => cases h0
    | cons b bs =>
      have hb0 := hall b List.mem_cons_self
      cases bs with
      | nil => rw [hb0]
      | cons b' bs =>
        have := hall b' (by simp)
        have := (List.pairwise_cons.1 h2).1 b' (by simp)
        omega
  subst hbs
  have hpp := r3.forecast
  simp only [List.map_cons, List.map_nil, hq] at hpp
  obtain ⟨T, t1, -, t2⟩ := r3.observed 0 0 rfl
  rw [hq] at t2
  refine ⟨o, s, fun ω => ⟨w ω, h ω⟩, r1, _, T, fun ω => ⟨by rw [(r2 ω).1, hpp]; rfl, ?_⟩, ?_⟩
  · have hl := r3.points ω
    rw [(r2 ω).2.1]
    have := t1 ω
    match h : pt ω, hl with
    | [x], _ =>
      rw [h] at this
      cases this
      rfl
  · rw [t2]
    simp only [List.map_cons, List.map_nil, if_true, show ([1] : List Nat) = [0] ↔ False by decide, if_false]
    rw [eventChance_over (by fun_prop) hlaw1, eventChance_over (by fun_prop) hlaw2]
    simp only [avg, beyondProb, if_true, gaussLaw, Bool.false_eq_true, if_false, List.sum_cons, List.sum_nil]
    have : ∀ x y z : ℝ, (1 - x + (1 - y + 0)) / (([1 - x, 1 - y] : List ℝ).length : ℝ) =
        (1 - z + (1 - y + 0)) / (([1 - z, 1 - y] : List ℝ).length : ℝ) ↔ x = z := by
      intro x y z
      norm_num
    rw [this]
    simp only [normalCdf, div_one]
    constructor
    · intro h
      have := strictMono_Phi.injective h
      linarith
    · rintro rfl; rfl

/-- the hypotheses on the hurdle class, threshold 0 -/
example (isOver : Bool) : ∃ o s : ℝ → _, (∀ ω, ∃ w, construct (hurdlePrims caseCfg (fnsPit 0) embBoth .inl) noMids
      (probObj (pitX dryX false (max (ω - Real.log 2) 0) (max (ω - Real.log 2) 0))) world0 = (.ok (o ω), w)) ∧
    (∀ ω, result .hurdle bothInfo (hurdlePrims caseCfg (fnsPit 0) embBoth .inl) noMids
      (.slot (.reliability (.inr 3) (overArg isOver (.inl 0)) (belowArg isOver (.inl 0)))) (unsaved (o ω)) world0 =
        .ok (some (.rel (.slice (s ω))))) := by
  have hb : ∀ ω : ℝ, ∃ o w, construct (hurdlePrims caseCfg (fnsPit 0) embBoth .inl) noMids
      (probObj (pitX dryX false (max (ω - Real.log 2) 0) (max (ω - Real.log 2) 0))) world0 = (.ok o, w) :=
    fun ω => ⟨_, _, rfl⟩
  choose o w h using hb
  have hm : Measurable fun ω : ℝ => max (ω - Real.log 2) 0 := by fun_prop
  obtain ⟨s, bs, pp, pt, pc, r1, r2, r3⟩ := C121_hurdle (I := bothInfo) (P := expLaw) (sh := [2])
    (w1 := fun _ => world0) h realLib_exact realLib_unit (.inl ⟨rfl, by simp⟩)
    (Y := fun _ ω => max (ω - Real.log 2) 0) (G := fun _ => hurdleLaw (1 / 2) 1 1)
    { shape := fun _ => rfl
      value := fun i hi ω => by rcases two_positions hi with rfl | rfl <;> rfl
      meas := fun i hi => hm
      law := fun i hi x => expLaw_hurdle x }
    (pop := ⟨[2], [some (1 / 2), some (1 / 2)], rfl⟩) (mu := ⟨[2], [some 1, some 1], rfl⟩)
    (sigma := ⟨[2], [some 1, some 1], rfl⟩) (fun _ => ⟨rfl, rfl⟩) (fun _ => ⟨rfl, rfl⟩) (fun _ => ⟨rfl, rfl⟩)
    (p := fun _ => 1 / 2) (m := fun _ => 1) (sd := fun _ => 1)
    (fun i hi => by rcases two_positions hi with rfl | rfl <;> norm_num [NDArr.get, ravel])
    (nb := .inr 3) (nbins := 3) rfl (by simp [Printable, bothInfo]) (by norm_num)
    (a := .inl 0) (by simp [Printable, bothInfo]) rfl trivial (τ := fun _ => 0) (fun _ _ => ⟨rfl, le_rfl⟩) (fun _ => rfl)
    (av := .none) (fun _ => rfl) trivial isOver
  exact ⟨o, s, fun ω => ⟨w ω, h ω⟩, r1⟩

/-- the hypotheses on the gamma class -/
example : ∃ o s : ℝ → _, (∀ ω, ∃ w, construct (gammaPrims caseCfg (fnsPit 0) embBoth) noMids
      (probObj (pitX { gammaX false with f := [("mu", ⟨[2], [some 0, some 3], rfl⟩), ("sigma", ⟨[2], [some 1, some 2], rfl⟩),
      ("shift", ⟨[2], [some (-1), some 1], rfl⟩), ("unshifted_mu", ⟨[2], [some 1, some 2], rfl⟩)] } false
        (max (1 * ω + -1) 0) (max (2 * ω + 1) 0))) world0 = (.ok (o ω), w)) ∧
    (∀ ω, result .gamma bothInfo (gammaPrims caseCfg (fnsPit 0) embBoth) noMids
      (.slot (.reliability (.inr 3) (some (.inl 2)) none)) (unsaved (o ω)) world0 = .ok (some (.rel (.slice (s ω))))) := by
  have hb : ∀ ω : ℝ, ∃ o w, construct (gammaPrims caseCfg (fnsPit 0) embBoth) noMids
      (probObj (pitX { gammaX false with f := [("mu", ⟨[2], [some 0, some 3], rfl⟩), ("sigma", ⟨[2], [some 1, some 2], rfl⟩),
      ("shift", ⟨[2], [some (-1), some 1], rfl⟩), ("unshifted_mu", ⟨[2], [some 1, some 2], rfl⟩)] } false
        (max (1 * ω + -1) 0) (max (2 * ω + 1) 0))) world0 = (.ok o, w) := fun ω => ⟨_, _, rfl⟩
  choose o w h using hb
  obtain ⟨s, bs, pp, pt, pc, r1, r2, r3⟩ := C121_gamma (I := bothInfo) (P := expLaw) (sh := [2])
    (w1 := fun _ => world0) h realLib_exact realLib_unit (.inl ⟨rfl, by simp⟩)
    (Y := fun i ω => if i = [0] then max (1 * ω + -1) 0 else max (2 * ω + 1) 0)
    (G := fun i => if i = [0] then censoredGammaCdf 1 1 (-1) else censoredGammaCdf 2 2 1)
    { shape := fun _ => rfl
      value := fun i hi ω => by rcases two_positions hi with rfl | rfl <;> rfl
      meas := fun i hi => by rcases two_positions hi with rfl | rfl <;> simp <;> fun_prop
      law := fun i hi x => by
        rcases two_positions hi with rfl | rfl
        · exact expLaw_law one_pos x
        · exact expLaw_law two_pos x }
    (fun _ => rfl)
    (umu := ⟨[2], [some 1, some 2], rfl⟩) (sigma := ⟨[2], [some 1, some 2], rfl⟩) (shift := ⟨[2], [some (-1), some 1], rfl⟩)
    (fun _ => ⟨rfl, rfl⟩) (fun _ => ⟨rfl, rfl⟩) (fun _ => ⟨rfl, rfl⟩)
    (m := fun i => if i = [0] then 1 else 2) (sd := fun i => if i = [0] then 1 else 2) (δ := fun i => if i = [0] then -1 else 1)
    (fun i hi => by rcases two_positions hi with rfl | rfl <;> simp [NDArr.get, ravel])
    (nb := .inr 3) (nbins := 3) rfl (by simp [Printable, bothInfo]) (by norm_num)
    (a := .inl 2) (by simp [Printable, bothInfo]) rfl trivial (τ := fun _ => 2) (fun _ _ => ⟨rfl, two_pos.le⟩) (fun _ => rfl)
    (av := .none) (fun _ => rfl) trivial true
  exact ⟨o, s, fun ω => ⟨w ω, h ω⟩, r1⟩

theorem fixedE_built' (ω : ℝ) : ∃ o w', construct (ensPrims cfgR embBoth) noMids (fixedE ω) world0 = (.ok o, w') ∧
    o.ext.axis = some 0 := ⟨_, _, rfl, rfl⟩

/-- the hypotheses on the ensemble class -/
example : ∃ o s : ℝ → _,
    (∀ ω, ∃ w, construct (ensPrims cfgR embBoth) noMids (fixedE ω) world0 = (.ok (o ω), w)) ∧
    (∀ ω, result .ensemble bothInfo (ensPrims cfgR embBoth) noMids (.slot (.reliability (.inr 2) none (some (.inl 1))))
      (unsaved (o ω)) world0 = .ok (some (.rel (.slice (s ω))))) := by
  choose o w h hax using fixedE_built'
  obtain ⟨s, bs, pp, pt, pc, r1, r2, r3⟩ := C121_ens (I := bothInfo) (P := stdNormal) (sh := [2]) (w1 := fun _ => world0) h
    (fun _ => rfl) rfl hax (Y := fun _ ω => 0 + 1 * ω) (G := fun _ => normalCdf 0 1)
    { shape := fun _ => rfl
      value := fun i hi ω => by rcases two_positions hi with rfl | rfl <;> rfl
      meas := fun i hi => by fun_prop
      law := fun i hi x => stdNormal_law 0 one_pos x }
    (M := fun i => if i = [0] then [1, 2] else [5, 6])
    (fun ω i hi => by rcases two_positions hi with rfl | rfl <;> exact ⟨rfl, by simp⟩)
    (nb := .inr 2) (nbins := 2) rfl (by simp [Printable, bothInfo]) (by norm_num)
    (a := .inl 1) (by simp [Printable, bothInfo]) rfl trivial (τ := fun _ => 1) (fun _ _ => rfl)
    (av := .none) (fun _ => rfl) trivial (by decide) false
  exact ⟨o, s, fun ω => ⟨w ω, h ω⟩, r1⟩

end Props
