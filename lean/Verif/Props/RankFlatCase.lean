import Verif.Props.RankFlat
import Verif.Props.HonestCase
import Verif.Lemmas.PsGaussian

/-! # Concrete cases for C119 -/

namespace Props
open Np NDArr Model Spec Lemmas MeasureTheory ProbabilityTheory

/-- three independent standard normal numbers -/
noncomputable def tripleNormal : Measure (Fin 3 → ℝ) := Measure.pi fun _ => stdNormal

instance : IsProbabilityMeasure tripleNormal := by unfold tripleNormal; infer_instance

theorem triple_law (k : Fin 3) (x : ℝ) : tripleNormal.real {ω | ω k ≤ x} = normalCdf 0 1 x := by
  have h1 := (measurePreserving_eval (fun _ : Fin 3 => stdNormal) k).measureReal_preimage (s := Set.Iic x)
    measurableSet_Iic.nullMeasurableSet
  have h2 := stdNormal_law 0 one_pos x
  simp only [one_mul, zero_add] at h2
  exact h1.trans h2

theorem triple_indep : iIndepFun (fun (k : Fin 3) (ω : Fin 3 → ℝ) => ω k) tripleNormal :=
  iIndepFun_pi (μ := fun _ : Fin 3 => stdNormal) (X := fun _ x => x) fun _ => aemeasurable_id

/-- two positions with the same observation and the same two members -/
noncomputable def tripleE (ω : Fin 3 → ℝ) : Obj (EnsX ℝ) :=
  { ensR with ext := { ensR.ext with
      f := ⟨[2, 2], [some (ω 1), some (ω 1), some (ω 2), some (ω 2)], rfl⟩
      o := ⟨[2], [some (ω 0), some (ω 0)], rfl⟩ } }

theorem tripleE_built (ω : Fin 3 → ℝ) : ∃ o w', construct (ensPrims cfgR embReal) noMids (tripleE ω) world0 = (.ok o, w') ∧
    o.ext.axis = some 0 := ⟨_, _, rfl, rfl⟩

/-- The observation has each of the three ranks with probability one third, and each is expected at two thirds of a
position. -/
example : ∃ o r : (Fin 3 → ℝ) → _,
    (∀ ω, ∃ w, construct (ensPrims cfgR embReal) noMids (tripleE ω) world0 = (.ok (o ω), w)) ∧
    (∀ ω, result .ensemble realInfo (ensPrims cfgR embReal) noMids (.slot .rankHist) (unsaved (o ω)) world0 =
      .ok (some (.ranks (r ω)))) ∧
    ∀ j, 1 ≤ j → j ≤ 3 → tripleNormal.real {ω | (r ω).get [0] = some j} = 1 / 3 ∧
      ∫ ω, (([[0], [1]].map (r ω).get).count (some j) : ℝ) ∂tripleNormal = 2 / 3 := by
  choose o w h hax using tripleE_built
  obtain ⟨r, r1, r2⟩ := C119_iid (I := realInfo) (P := tripleNormal) (sh := [2]) (n := 2) (w1 := fun _ => world0) h rfl
    (by decide) (Or.inl rfl) (fun ω => by simp [tripleE, ensR]) hax (Z := fun _ k ω => ω k)
    { shape := fun _ => rfl
      value := fun i hi ω => by rcases two_positions hi with rfl | rfl <;> rfl
      members := fun i hi ω => by rcases two_positions hi with rfl | rfl <;> rfl
      meas := fun i hi k => measurable_pi_apply k }
    (G := fun _ => normalCdf 0 1) (fun _ _ => triple_indep)
    (fun _ _ => ⟨continuous_normalCdf 0 1, triple_law⟩)
  refine ⟨o, r, fun ω => ⟨w ω, h ω⟩, r1, fun j h1 h2 => ?_⟩
  obtain ⟨g1, g2⟩ := r2 [[0], [1]] (by decide) j h1 (by omega)
  refine ⟨?_, ?_⟩
  · rw [g1 [0] (by simp)]; norm_num
  · rw [g2]; norm_num

/-- one position; negative values are set to zero, as in precipitation -/
noncomputable def wetE (ω : Fin 3 → ℝ) : Obj (EnsX ℝ) :=
  { ensR with ext := { ensR.ext with
      f := ⟨[2, 1], [some (max (ω 1) 0), some (max (ω 2) 0)], rfl⟩
      o := ⟨[1], [some (max (ω 0) 0)], rfl⟩ } }

theorem wetE_built (ω : Fin 3 → ℝ) : ∃ o w', construct (ensPrims cfgR embReal) noMids (wetE ω) world0 = (.ok o, w') ∧
    o.ext.axis = some 0 := ⟨_, _, rfl, rfl⟩

theorem one_position {i : List Nat} (h : InB [1] i) : i = [0] := by
  have := mem_allIdx.2 h
  have e : allIdx [1] = [[0]] := by decide
  rw [e] at this
  simpa using this

/-- Observation and members are drawn from one distribution, yet the first rank is more likely than one third. -/
example : ∃ o r : (Fin 3 → ℝ) → _,
    (∀ ω, ∃ w, construct (ensPrims cfgR embReal) noMids (wetE ω) world0 = (.ok (o ω), w)) ∧
    (∀ ω, result .ensemble realInfo (ensPrims cfgR embReal) noMids (.slot .rankHist) (unsaved (o ω)) world0 =
      .ok (some (.ranks (r ω)))) ∧ 1 / 3 < tripleNormal.real {ω | (r ω).get [0] = some 1} := by
  choose o w h hax using wetE_built
  have hm : Measurable fun x : ℝ => max x 0 := measurable_id.max measurable_const
  have hmk : ∀ k, Measurable fun ω : Fin 3 → ℝ => max (ω k) 0 := fun k => hm.comp (measurable_pi_apply k)
  obtain ⟨r, r1, r2⟩ := C119_ties (I := realInfo) (P := tripleNormal) (sh := [1]) (n := 2) (w1 := fun _ => world0) h rfl
    (by decide) rfl (fun ω => by simp [wetE, ensR]) hax (Z := fun _ k ω => max (ω k) 0)
    { shape := fun _ => rfl
      value := fun i hi ω => by rw [one_position hi]; rfl
      members := fun i hi ω => by rw [one_position hi]; rfl
      meas := fun i hi k => hmk k }
    (fun k k' hk hk' => by rw [one_position hk, one_position hk'])
  refine ⟨o, r, fun ω => ⟨w ω, h ω⟩, r1, ?_⟩
  have hlaw : ∀ (k : Fin 3) x, tripleNormal.real {ω | max (ω k) 0 ≤ x} = if 0 ≤ x then normalCdf 0 1 x else 0 := by
    intro k x
    split
    · rename_i hx
      rw [← triple_law k x]
      congr 1
      ext ω
      simp [hx]
    · rename_i hx
      have : {ω : Fin 3 → ℝ | max (ω k) 0 ≤ x} = ∅ := by
        ext ω
        simp only [Set.mem_ofPred_eq, Set.mem_empty_iff_false, iff_false]
        exact fun g => hx ((le_max_right _ _).trans g)
      rw [this]; simp
  have hE : ExchLaw tripleNormal fun (k : Fin 3) (ω : Fin 3 → ℝ) => max (ω k) 0 :=
    exch_of_iid hmk (triple_indep.comp (fun _ x => max x 0) fun _ => hm) hlaw
  obtain ⟨g1, g2⟩ := r2 [0] (by decide) hE
  norm_num at g1 g2
  refine lt_of_le_of_ne g1 fun e => ?_
  have := g2.1 e.symm
  have hsub : Set.univ.pi (fun _ : Fin 3 => Set.Iic (0 : ℝ)) ⊆ {ω : Fin 3 → ℝ | ∃ j k, j ≠ k ∧
      max (ω j) 0 = max (ω k) 0 ∧ ∀ m, max (ω j) 0 ≤ max (ω m) 0} := by
    intro ω hω
    have hω : ∀ k, ω k ≤ 0 := fun k => hω k trivial
    exact ⟨0, 1, by decide, by simp [hω], fun m => by simp [hω]⟩
  have h0 := measure_mono_null (μ := tripleNormal) hsub (by simpa [hsub] using this)
  unfold tripleNormal at h0
  rw [Measure.pi_pi] at h0
  simp only [Finset.prod_const, Finset.card_univ, Fintype.card_fin] at h0
  have h1 : stdNormal (Set.Iic 0) = 0 := by simpa using h0
  have h2 := stdNormal_law 0 one_pos 0
  simp only [one_mul, zero_add] at h2
  have h3 : stdNormal.real {ω | ω ≤ 0} = 0 := by
    show (stdNormal (Set.Iic 0)).toReal = 0
    rw [h1]; rfl
  rw [h3, normalCdf] at h2
  have h4 := Phi_neg ((0 - 0) / 1)
  norm_num at h2 h4
  linarith

end Props
