import Verif.Props.RankSample
import Verif.Props.PitUniformCase
import Mathlib.Probability.Independence.InfinitePi

/-! # Concrete cases for C122 -/

namespace Props
open Np NDArr Model Spec Lemmas MeasureTheory ProbabilityTheory

/-- a sequence of independent numbers -/
noncomputable def seqOf (μ : Measure ℝ) [IsProbabilityMeasure μ] : Measure (ℕ → ℝ) := Measure.infinitePi fun _ => μ

instance (μ : Measure ℝ) [IsProbabilityMeasure μ] : IsProbabilityMeasure (seqOf μ) := by unfold seqOf; infer_instance

/-- the first number is turned into the observation, the others into members -/
def seqNum (g s : List Nat → ℝ → ℝ) (n : Nat) (k : List Nat) (j : Fin (n + 1)) (ω : ℕ → ℝ) : ℝ :=
  (if (j : ℕ) = 0 then g k else s k) (ω j)

theorem seq_sampled (μ : Measure ℝ) [IsProbabilityMeasure μ] {g s : List Nat → ℝ → ℝ} {G D : List Nat → ℝ → ℝ}
    {sh : List Nat} (hg : ∀ k, InB sh k → Measurable (g k)) (hs : ∀ k, InB sh k → Measurable (s k))
    (hG : ∀ k, InB sh k → ∀ x, μ.real {y | g k y ≤ x} = G k x) (hD : ∀ k, InB sh k → ∀ x, μ.real {y | s k y ≤ x} = D k x)
    {n : Nat} {o : (ℕ → ℝ) → NDArr (Fl ℝ)} {draw : (ℕ → ℝ) → Nat → List Nat → Fl ℝ} (hsh : ∀ ω, (o ω).shape = sh)
    (ho : ∀ k, InB sh k → ∀ ω, (o ω).get k = some (g k (ω 0)))
    (hd : ∀ k, InB sh k → ∀ ω m, draw ω m k = some (s k (ω (m + 1)))) :
    Sampled (seqOf μ) sh n o draw (seqNum g s n) G D := by
  have hX : ∀ k, InB sh k → ∀ i : ℕ, Measurable (if i = 0 then g k else s k) := by
    intro k hk i
    split_ifs
    · exact hg k hk
    · exact hs k hk
  have hlaw : ∀ (f : ℝ → ℝ), Measurable f → ∀ (i : ℕ) x, (seqOf μ).real {ω | f (ω i) ≤ x} = μ.real {y | f y ≤ x} := by
    intro f hf i x
    exact (measurePreserving_eval_infinitePi (fun _ : ℕ => μ) i).measureReal_preimage
      (s := {y | f y ≤ x}) (hf measurableSet_Iic).nullMeasurableSet
  refine ⟨hsh, fun k hk ω => ho k hk ω, fun k hk j ω => ?_, fun k hk j => (hX k hk j).comp (measurable_pi_apply _),
    fun k hk => ?_, fun k hk x => ?_, fun k hk j x => ?_⟩
  · rw [hd k hk]
    rfl
  · have := iIndepFun_infinitePi (P := fun _ : ℕ => μ) (X := fun i : ℕ => if i = 0 then g k else s k) (hX k hk)
    exact this.precomp (g := fun j : Fin (n + 1) => (j : ℕ)) Fin.val_injective
  · rw [← hG k hk x]
    exact hlaw (g k) (hg k hk) 0 x
  · rw [← hD k hk x]
    exact hlaw (s k) (hs k hk) (j + 1) x

/-- a generator that turns the numbers of a sequence into members -/
noncomputable def fnsSeq (s : List Nat → ℝ → ℝ) (ω : ℕ → ℝ) : ProbFns ℝ :=
  { fnsPs with scipy := realLib, rvs := fun _ _ _ _ m k => some (s k (ω (m + 1))) }

/-- `n` members to sample, nothing clipped -/
def sampleX (x : ProbX ℝ) (n : Nat) (y₀ y₁ : ℝ) : ProbX ℝ :=
  { x with o := ⟨[2], [some y₀, some y₁], rfl⟩, members := .val (n : Int), clip := .none }

/-- the members of the Gaussian class at the two positions -/
noncomputable def normalMember (k : List Nat) (x : ℝ) : ℝ := if k = [0] then 1 + 1 * x else 3 + 2 * x

theorem measurable_normalMember (k : List Nat) : Measurable (normalMember k) := by
  show Measurable fun x => normalMember k x
  unfold normalMember
  split_ifs <;> fun_prop

/-- Normal observations with mean `a`: the highest rank is as frequent as it should be, for every number of members, exactly
if `a` is the announced 1; then this holds for every rank. -/
example (a : ℝ) : ∃ (o : ℕ → (ℕ → ℝ) → Obj (ProbX ℝ)) (r : ℕ → (ℕ → ℝ) → NDArr (Option Nat)),
    (∀ n ω, ∃ w, construct (gaussPrims caseCfg (fnsSeq normalMember ω) embIntR) noMids
      (probObj (sampleX (gaussX false) n (a + 1 * ω 0) (3 + 2 * ω 0))) world0 = (.ok (o n ω), w)) ∧
    (∀ n ω, result .gaussian intInfo (gaussPrims caseCfg (fnsSeq normalMember ω) embIntR) noMids (.slot .rankHist)
      (unsaved (o n ω)) world0 = .ok (some (.ranks (r n ω)))) ∧
    ((∀ n : ℕ, (seqOf stdNormal).real {ω | (r n ω).get [0] = some (n + 1)} = 1 / (n + 1)) ↔ a = 1) ∧
    (a = 1 → ∀ n j : ℕ, 1 ≤ j → j ≤ n + 1 → (seqOf stdNormal).real {ω | (r n ω).get [0] = some j} = 1 / (n + 1)) := by
  have hb : ∀ (n : ℕ) (ω : ℕ → ℝ), ∃ o w, construct (gaussPrims caseCfg (fnsSeq normalMember ω) embIntR) noMids
      (probObj (sampleX (gaussX false) n (a + 1 * ω 0) (3 + 2 * ω 0))) world0 = (.ok o, w) := fun n ω => ⟨_, _, rfl⟩
  choose o w h using hb
  have hd : ∀ n : ℕ, Sampled (seqOf stdNormal) [2] n
      (fun ω => (probObj (sampleX (gaussX false) n (a + 1 * ω 0) (3 + 2 * ω 0))).ext.o)
      (fun ω => drawAt ((caseCfg (K := ℝ)).workers : Int) (caseCfg (K := ℝ)).mapAxis
        ((fnsSeq normalMember ω).rvs ((world0 : World (PyVal ℝ)).seed (world0 : World (PyVal ℝ)).pos) false
          [⟨[2], [some 1, some 3], rfl⟩, ⟨[2], [some 1, some 2], rfl⟩]) [2])
      (seqNum (fun i x => if i = [0] then a + 1 * x else 3 + 2 * x) normalMember n)
      (fun i => if i = [0] then normalCdf a 1 else normalCdf 3 2)
      (fun i => gaussLaw false (if i = [0] then 1 else 3) (if i = [0] then 1 else 2)) := fun n =>
    seq_sampled stdNormal
      (fun k hk => by rcases two_positions hk with rfl | rfl <;> simp <;> fun_prop)
      (fun k _ => measurable_normalMember k)
      (fun k hk x => by
        rcases two_positions hk with rfl | rfl
        · exact stdNormal_law a one_pos x
        · exact stdNormal_law 3 two_pos x)
      (fun k hk x => by
        rcases two_positions hk with rfl | rfl
        · exact stdNormal_law 1 one_pos x
        · exact stdNormal_law 3 two_pos x)
      (fun ω => rfl)
      (fun k hk ω => by rcases two_positions hk with rfl | rfl <;> rfl)
      (fun k hk ω m => by rcases two_positions hk with rfl | rfl <;> rfl)
  obtain ⟨r, r1, r2, -, r3⟩ := C122_gauss (I := intInfo) (P := seqOf stdNormal) (sh := [2]) (tr := false)
    (w1 := fun _ _ => world0) (F := fnsSeq normalMember) h (fun _ _ => rfl) (fun _ _ => rfl) (fun _ _ => rfl)
    (.inl rfl) (.inl rfl) (by decide) rfl (fun _ _ => rfl)
    (mu := ⟨[2], [some 1, some 3], rfl⟩) (sigma := ⟨[2], [some 1, some 2], rfl⟩) (fun _ _ => ⟨rfl, rfl⟩)
    (fun _ _ => ⟨rfl, rfl⟩)
    (m := fun i => if i = [0] then 1 else 3) (sd := fun i => if i = [0] then 1 else 2)
    (fun i hi => by rcases two_positions hi with rfl | rfl <;> simp [NDArr.get, ravel]) hd
  have h1 : a = 1 → ∀ n j : ℕ, 1 ≤ j → j ≤ n + 1 →
      (seqOf stdNormal).real {ω | (r n ω).get [0] = some j} = 1 / (n + 1) := by
    rintro rfl
    exact r2 [0] (by decide) (by simp [gaussLaw])
  refine ⟨o, r, fun n ω => ⟨w n ω, h n ω⟩, r1, ⟨fun hh => ?_, fun ha n => h1 ha n (n + 1) (by omega) le_rfl⟩, h1⟩
  have := r3 [0] (by decide) hh
  simp only [if_true, gaussLaw, Bool.false_eq_true, if_false] at this
  have := congrFun this 1
  simp only [normalCdf, sub_self, div_one] at this
  have := strictMono_Phi.injective this
  linarith

/-- the members of the gamma class at the two positions: exponential, shifted by -1 and by 1 -/
noncomputable def expMember (k : List Nat) (x : ℝ) : ℝ := if k = [0] then 1 * x + -1 else 2 * x + 1

theorem measurable_expMember (k : List Nat) : Measurable (expMember k) := by
  show Measurable fun x => expMember k x
  unfold expMember
  split_ifs <;> fun_prop

theorem expLaw_shifted {m d : ℝ} (hm : 0 < m) (x : ℝ) : expLaw.real {ω | m * ω + d ≤ x} = shiftedGammaCdf m m d x := by
  have : {ω | m * ω + d ≤ x} = Set.Iic ((x - d) / m) := by
    ext ω
    simp only [Set.mem_ofPred_eq, Set.mem_Iic, le_div_iff₀ hm]
    constructor <;> intro h <;> linarith
  rw [this, shiftedGammaCdf, div_self hm.ne', one_pow, show m ^ 2 / m = m by field_simp]
  exact dens_law (fun x => gammaPdf_nonneg one_pos x) (integrable_gammaPdf one_pos) _

/-- Precipitation with the distribution that `cdf()` announces, zero with probability `1 - exp (-1)`: the highest rank is more
frequent than it should be, for every number of members. -/
example : ∃ (o : ℕ → (ℕ → ℝ) → Obj (ProbX ℝ)) (r : ℕ → (ℕ → ℝ) → NDArr (Option Nat)),
    (∀ n ω, ∃ w, construct (gammaPrims caseCfg (fnsSeq expMember ω) embIntR) noMids
      (probObj (sampleX { gammaX false with f := [("mu", ⟨[2], [some 0, some 3], rfl⟩), ("sigma", ⟨[2], [some 1, some 2], rfl⟩),
      ("shift", ⟨[2], [some (-1), some 1], rfl⟩), ("unshifted_mu", ⟨[2], [some 1, some 2], rfl⟩)] } n
        (max (1 * ω 0 + -1) 0) (max (2 * ω 0 + 1) 0))) world0 = (.ok (o n ω), w)) ∧
    (∀ n ω, result .gamma intInfo (gammaPrims caseCfg (fnsSeq expMember ω) embIntR) noMids (.slot .rankHist)
      (unsaved (o n ω)) world0 = .ok (some (.ranks (r n ω)))) ∧
    ∀ n : ℕ, (seqOf expLaw).real {ω | (r n ω).get [0] = some (n + 1)} = (1 + n * (1 - Real.exp (-1)) ^ (n + 1)) / (n + 1) := by
  have hb : ∀ (n : ℕ) (ω : ℕ → ℝ), ∃ o w, construct (gammaPrims caseCfg (fnsSeq expMember ω) embIntR) noMids
      (probObj (sampleX { gammaX false with f := [("mu", ⟨[2], [some 0, some 3], rfl⟩), ("sigma", ⟨[2], [some 1, some 2], rfl⟩),
      ("shift", ⟨[2], [some (-1), some 1], rfl⟩), ("unshifted_mu", ⟨[2], [some 1, some 2], rfl⟩)] } n
        (max (1 * ω 0 + -1) 0) (max (2 * ω 0 + 1) 0))) world0 = (.ok o, w) := fun n ω => ⟨_, _, rfl⟩
  choose o w h using hb
  have hd : ∀ n : ℕ, Sampled (seqOf expLaw) [2] n
      (fun ω => (⟨[2], [some (max (1 * ω 0 + -1) 0), some (max (2 * ω 0 + 1) 0)], rfl⟩ : NDArr (Fl ℝ)))
      (fun ω => drawAt ((caseCfg (K := ℝ)).workers : Int) (caseCfg (K := ℝ)).mapAxis
        ((fnsSeq expMember ω).rvs ((world0 : World (PyVal ℝ)).seed (world0 : World (PyVal ℝ)).pos) false
          [⟨[2], [some 1, some 2], rfl⟩, ⟨[2], [some 1, some 2], rfl⟩, ⟨[2], [some (-1), some 1], rfl⟩]) [2])
      (seqNum (fun i x => if i = [0] then max (1 * x + -1) 0 else max (2 * x + 1) 0) expMember n)
      (fun i => if i = [0] then censoredGammaCdf 1 1 (-1) else censoredGammaCdf 2 2 1)
      (fun i => shiftedGammaCdf (if i = [0] then 1 else 2) (if i = [0] then 1 else 2) (if i = [0] then -1 else 1)) := fun n =>
    seq_sampled expLaw
      (fun k hk => by rcases two_positions hk with rfl | rfl <;> simp <;> fun_prop)
      (fun k _ => measurable_expMember k)
      (fun k hk x => by
        rcases two_positions hk with rfl | rfl
        · exact expLaw_law one_pos x
        · exact expLaw_law two_pos x)
      (fun k hk x => by
        rcases two_positions hk with rfl | rfl
        · exact expLaw_shifted one_pos x
        · exact expLaw_shifted two_pos x)
      (fun ω => rfl)
      (fun k hk ω => by rcases two_positions hk with rfl | rfl <;> rfl)
      (fun k hk ω m => by rcases two_positions hk with rfl | rfl <;> rfl)
  obtain ⟨r, r1, -, -, -, r4⟩ := C122_gamma (I := intInfo) (P := seqOf expLaw) (sh := [2])
    (w1 := fun _ _ => world0) (F := fnsSeq expMember) h (fun _ _ => rfl) (fun _ _ => rfl) (fun _ _ => rfl)
    (.inl rfl) (.inl rfl) (by decide) rfl (fun _ _ => rfl)
    (umu := ⟨[2], [some 1, some 2], rfl⟩) (sigma := ⟨[2], [some 1, some 2], rfl⟩) (shift := ⟨[2], [some (-1), some 1], rfl⟩)
    (fun _ _ => ⟨rfl, rfl⟩) (fun _ _ => ⟨rfl, rfl⟩) (fun _ _ => ⟨rfl, rfl⟩)
    (m := fun i => if i = [0] then 1 else 2) (sd := fun i => if i = [0] then 1 else 2) (a := fun i => if i = [0] then -1 else 1)
    (fun i hi => by rcases two_positions hi with rfl | rfl <;> simp [NDArr.get, ravel]) hd
  refine ⟨o, r, fun n ω => ⟨w n ω, h n ω⟩, r1, fun n => ?_⟩
  rw [r4 [0] (by decide) (fun n ω => by simp [seqNum]) (by simp) n]
  simp only [if_true, censoredGammaCdf, lt_irrefl, if_false]
  rw [show ((1 : ℝ) / 1) ^ 2 = 1 by norm_num, show ((0 : ℝ) - -1) / (1 ^ 2 / 1) = 1 by norm_num, gammaCdf_one zero_le_one]

end Props
