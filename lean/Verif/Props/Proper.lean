import Verif.Lemmas.Proper
import Verif.Props.EnsCrps
import Verif.Props.EndToEndProbCase

/-!
# Reliability, resolution and uncertainty of `crps()` and `brier()`: C98
-/

set_option linter.unusedSectionVars false

namespace Props
open Np NDArr Spec Model Lemmas MeasureTheory

variable {A : Type} {I : ArgInfo A} {mids : FS (PyVal ℝ) → Path → List (FS (PyVal ℝ))} {c : Cfg ℝ} {emb : A → Arg ℝ}

theorem reliability_nonneg {α : Type} (L : List α) (F : α → ℝ → ℝ) (Y : α → ℝ) : 0 ≤ crpsReliability L F Y :=
  avg_nonneg' L fun _ _ => integral_nonneg fun _ => sq_nonneg _

theorem resolution_nonneg {α : Type} (L : List α) (F : α → ℝ → ℝ) (Y : α → ℝ) : 0 ≤ crpsResolution L F Y :=
  avg_nonneg' L fun _ _ => integral_nonneg fun _ => sq_nonneg _

/-- **C98**, ensembles: for complete data the value of `crps()` at every kept position is reliability minus resolution
plus uncertainty over the pooled positions. The reliability is zero exactly when the members of every pooled position
are distributed like the observations of the pooled positions with that distribution of members. -/
theorem C98_ens {oi o : Obj (EnsX ℝ)} {w w' : World (PyVal ℝ)}
    (h : construct (ensPrims c emb) mids oi w = (.ok o, w')) (hb : oi.boot = .none)
    {pt : Fl ℝ → List (Fl ℝ) → Fl ℝ} (hpt : IsEnergyScore pt) {split : Bool}
    (hc : ∀ o f ax, c.crpsEns o f ax = ensembleCrps pt split ax o f) (hs : oi.ext.o.shape ≠ [])
    (h0 : 0 ∉ oi.ext.f.shape) (hf : none ∉ oi.ext.f.data) (ho : none ∉ oi.ext.o.data)
    (hok : OptOK oi.ext.o.shape.length (axesOf oi.avg)) (w1 : World (PyVal ℝ)) :
    ∃ ax r, o.ext.axis = some ax ∧
      result .ensemble I (ensPrims c emb) mids (.slot .crps) (unsaved o) w1 = .ok (some (.num r)) ∧
      r.shape = dropAxes (nums oi.ext.o.shape.length (axesOf oi.avg)) oi.ext.o.shape ∧
      ∃ (Y : List Nat → ℝ) (M : List Nat → List ℝ),
        (∀ i, InB oi.ext.o.shape i → oi.ext.o.get i = some (Y i) ∧ membersAt oi.ext.f ax i = (M i).map some) ∧
        ∀ k, InB r.shape k →
          let L := fiberIdx oi.ext.o.shape (nums oi.ext.o.shape.length (axesOf oi.avg)) k
          let F := fun i => ecdf (M i)
          r.get k = some (crpsReliability L F Y - crpsResolution L F Y + crpsUncertainty L Y) ∧
          0 ≤ crpsReliability L F Y ∧ 0 ≤ crpsResolution L F Y ∧
          (crpsReliability L F Y = 0 ↔ ∀ i ∈ L, ecdf (M i) = ecdf ((alike F L i).map Y)) := by
  obtain ⟨ax, r, r0, r1, r2, Y, M, hYM, r3⟩ := C88_crps (I := I) h hb hpt hc hs h0 hf ho hok w1
  obtain ⟨ax', fc, h1, -, h3, h4, -, -, -⟩ := C75_construct_ens h
  have hax := h1.axis
  rw [r0] at hax
  cases hax
  have hsh := h1.shape
  rw [h3, h4] at hsh
  have hpos := ens_prod hsh h0
  refine ⟨ax, r, r0, r1, r2, Y, M, fun i hi => ⟨(hYM i hi).1, (hYM i hi).2.1⟩, fun k hk => ?_⟩
  have hne := fiberIdx_ne hpos (r2 ▸ hk)
  have hin : ∀ i ∈ fiberIdx oi.ext.o.shape (nums oi.ext.o.shape.length (axesOf oi.avg)) k, InB oi.ext.o.shape i :=
    fun i hi => (mem_fiberIdx.1 hi).1
  obtain ⟨d1, d2, d3⟩ := crps_decomp hne (fun i => ecdf (M i)) Y fun i hi j _ _ => (crps_ecdf (hYM i (hin i hi)).2.2.1 (Y j)).1
  refine ⟨?_, reliability_nonneg _ _ _, resolution_nonneg _ _ _, ?_⟩
  · rw [r3 k hk, ← d3]
    congr 2
    exact List.map_congr_left fun i hi => (hYM i (hin i hi)).2.2.2.2
  · unfold crpsReliability
    rw [avg_zero_iff fun i _ => integral_nonneg fun _ => sq_nonneg _]
    refine forall₂_congr fun i hi => ⟨fun hz => ecdf_eq_of_integral (d1 i hi) hz, fun he => ?_⟩
    beta_reduce
    rw [he]
    simp

/-- **C98**: if all pooled positions have the same members, `crps()` is the squared distance between the distribution
functions of the members and of the pooled observations plus half the mean absolute difference of the observations. So
it is never below the latter, and reaches it exactly when the members are distributed like the observations. -/
theorem C98_proper {oi o : Obj (EnsX ℝ)} {w w' : World (PyVal ℝ)}
    (h : construct (ensPrims c emb) mids oi w = (.ok o, w')) (hb : oi.boot = .none)
    {pt : Fl ℝ → List (Fl ℝ) → Fl ℝ} (hpt : IsEnergyScore pt) {split : Bool}
    (hc : ∀ o f ax, c.crpsEns o f ax = ensembleCrps pt split ax o f) (hs : oi.ext.o.shape ≠ [])
    (h0 : 0 ∉ oi.ext.f.shape) (hf : none ∉ oi.ext.f.data) (ho : none ∉ oi.ext.o.data)
    (hok : OptOK oi.ext.o.shape.length (axesOf oi.avg)) (w1 : World (PyVal ℝ)) :
    ∃ ax r, o.ext.axis = some ax ∧
      result .ensemble I (ensPrims c emb) mids (.slot .crps) (unsaved o) w1 = .ok (some (.num r)) ∧
      ∃ Y : List Nat → ℝ, (∀ i, InB oi.ext.o.shape i → oi.ext.o.get i = some (Y i)) ∧
        ∀ k, InB r.shape k → ∀ ms : List ℝ,
          let L := fiberIdx oi.ext.o.shape (nums oi.ext.o.shape.length (axesOf oi.avg)) k
          (∀ i ∈ L, membersAt oi.ext.f ax i = ms.map some) →
          ∃ v, r.get k = some v ∧
            v = (∫ t, (ecdf ms t - ecdf (L.map Y) t) ^ 2) + crpsUncertainty L Y ∧
            crpsUncertainty L Y ≤ v ∧ (v = crpsUncertainty L Y ↔ ecdf ms = ecdf (L.map Y)) := by
  obtain ⟨ax, r, r0, r1, r2, Y, M, hYM, r3⟩ := C88_crps (I := I) h hb hpt hc hs h0 hf ho hok w1
  obtain ⟨ax', fc, h1, -, h3, h4, -, -, -⟩ := C75_construct_ens h
  have hax := h1.axis
  rw [r0] at hax
  cases hax
  have hsh := h1.shape
  rw [h3, h4] at hsh
  have hpos := ens_prod hsh h0
  refine ⟨ax, r, r0, r1, Y, fun i hi => (hYM i hi).1, ?_⟩
  intro k hk ms L hms
  have hne : L ≠ [] := fiberIdx_ne hpos (r2 ▸ hk)
  have hin : ∀ i ∈ L, InB oi.ext.o.shape i := fun i hi => (mem_fiberIdx.1 hi).1
  have hM : ∀ i ∈ L, M i = ms := fun i hi => by
    have := (hYM i (hin i hi)).2.1
    rw [hms i hi] at this
    exact (List.map_injective_iff.2 (Option.some_injective _) this).symm
  have hm : ms ≠ [] := by
    obtain ⟨i, l, hl⟩ := List.exists_cons_of_ne_nil hne
    have hi : i ∈ L := by rw [hl]; simp
    rw [← hM i hi]
    exact (hYM i (hin i hi)).2.2.1
  have hYne : L.map Y ≠ [] := by simpa using hne
  obtain ⟨s1, s2⟩ := crps_split hYne (F := ecdf ms) fun y _ => (crps_ecdf hm y).1
  have hu : avg ((L.map Y).map (crpsOf (ecdf (L.map Y)))) = crpsUncertainty L Y := by
    rw [crps_self hYne, crpsUncertainty, List.map_map]
    congr 2
    apply List.map_congr_left
    intro i _
    simp only [Function.comp, List.map_map]
    rfl
  rw [hu, List.map_map] at s2
  have hn : 0 ≤ ∫ t, (ecdf ms t - ecdf (L.map Y) t) ^ 2 := integral_nonneg fun _ => sq_nonneg _
  refine ⟨_, ?_, rfl, by linarith, ?_⟩
  · rw [r3 k hk, ← s2]
    congr 2
    refine List.map_congr_left fun i hi => ?_
    rw [(hYM i (hin i hi)).2.2.2.2, hM i hi]
    rfl
  · rw [add_eq_right]
    refine ⟨fun hz => ecdf_eq_of_integral s1 hz, fun he => ?_⟩
    rw [he]
    simp

/-- **C98**, the truncated Gaussian class: `crps()` is reliability minus resolution plus uncertainty of the truncated
normal distributions. -/
theorem C98_gauss {F : ProbFns ℝ} {oi o : Obj (ProbX ℝ)} {w w' : World (PyVal ℝ)}
    (h : construct (gaussPrims c F emb) mids oi w = (.ok o, w')) (hG : F.gauss = realGauss)
    (htr : oi.ext.truncated = some true) (h0 : 0 ∉ oi.ext.o.shape) (ho : none ∉ oi.ext.o.data)
    (hmu : ∀ mu, HasPar oi.ext "mu" mu → none ∉ mu.data)
    (hsd : ∀ sigma, HasPar oi.ext "sigma" sigma → ∀ k, InB oi.ext.o.shape k → ∃ v, sigma.get k = some v ∧ 0 < v)
    (hb : oi.boot = .none) (hok : OptOK oi.ext.o.shape.length (axesOf oi.avg)) (w1 : World (PyVal ℝ)) :
    ∃ mu sigma r, HasPar oi.ext "mu" mu ∧ HasPar oi.ext "sigma" sigma ∧
      result .gaussian I (gaussPrims c F emb) mids (.slot .crps) (unsaved o) w1 = .ok (some (.num r)) ∧
      r.shape = dropAxes (nums oi.ext.o.shape.length (axesOf oi.avg)) oi.ext.o.shape ∧
      ∃ Y m sd : List Nat → ℝ,
        (∀ i, InB oi.ext.o.shape i → oi.ext.o.get i = some (Y i) ∧ mu.get i = some (m i) ∧ sigma.get i = some (sd i)) ∧
        ∀ k, InB r.shape k →
          let L := fiberIdx oi.ext.o.shape (nums oi.ext.o.shape.length (axesOf oi.avg)) k
          let G := fun i => truncNormalCdf (m i) (sd i) 0
          r.get k = some (crpsReliability L G Y - crpsResolution L G Y + crpsUncertainty L Y) ∧
          0 ≤ crpsReliability L G Y ∧ 0 ≤ crpsResolution L G Y := by
  obtain ⟨mu, sigma, r, hm, hs, r1, r2, r3⟩ := C76_gauss_crps_truncated (I := I) h hG htr
    (fun sigma hs k v hk hv => by obtain ⟨u, hu, hpos⟩ := hsd sigma hs k hk; rw [hv] at hu; cases hu; exact hpos) hb hok w1
  have hv : ∀ i, InB oi.ext.o.shape i → oi.ext.o.get i = some ((oi.ext.o.get i).getD 0) ∧
      mu.get i = some ((mu.get i).getD 0) ∧ sigma.get i = some ((sigma.get i).getD 0) ∧ 0 < (sigma.get i).getD 0 := by
    intro i hi
    obtain ⟨y, hy⟩ := get_some ho hi
    obtain ⟨a, ha⟩ := get_some (hmu mu hm) (k := i) (by rw [hm.2]; exact hi)
    obtain ⟨d, hd, hpos⟩ := hsd sigma hs i hi
    simp only [hy, ha, hd, Option.getD_some]
    exact ⟨trivial, trivial, trivial, hpos⟩
  refine ⟨mu, sigma, r, hm, hs, r1, r2, fun i => (oi.ext.o.get i).getD 0, fun i => (mu.get i).getD 0,
    fun i => (sigma.get i).getD 0, fun i hi => ⟨(hv i hi).1, (hv i hi).2.1, (hv i hi).2.2.1⟩, fun k hk => ?_⟩
  have hin : ∀ i ∈ fiberIdx oi.ext.o.shape (nums oi.ext.o.shape.length (axesOf oi.avg)) k, InB oi.ext.o.shape i :=
    fun i hi => (mem_fiberIdx.1 hi).1
  have hne := fiberIdx_ne h0 (r2 ▸ hk)
  obtain ⟨d1, d2, d3⟩ := crps_decomp hne (fun i => truncNormalCdf ((mu.get i).getD 0) ((sigma.get i).getD 0) 0)
    (fun i => (oi.ext.o.get i).getD 0) fun i hi j _ _ => (crps_trunc _ _ _ _ (hv i (hin i hi)).2.2.2).1
  refine ⟨?_, reliability_nonneg _ _ _, resolution_nonneg _ _ _⟩
  rw [← d3]
  refine isAvg_some hne (fun i hi => ?_) (r3 k hk)
  obtain ⟨e1, e2, e3, -⟩ := hv i (hin i hi)
  rw [e1, e2, e3]
  simp

/-- **C98**, the gamma class, for observations that are not negative. -/
theorem C98_gamma {F : ProbFns ℝ} {oi o : Obj (ProbX ℝ)} {w w' : World (PyVal ℝ)}
    (h : construct (gammaPrims c F emb) mids oi w = (.ok o, w')) (hG : F.gam = realGamma)
    (htr : oi.ext.truncated = some false) (h0 : 0 ∉ oi.ext.o.shape)
    (hpos : ∀ umu sigma shift, HasPar oi.ext "unshifted_mu" umu → HasPar oi.ext "sigma" sigma →
      HasPar oi.ext "shift" shift → ∀ k, InB oi.ext.o.shape k →
      (∃ v, umu.get k = some v ∧ 0 < v) ∧ (∃ v, sigma.get k = some v ∧ 0 < v) ∧ (∃ v, shift.get k = some v) ∧
      ∃ v, oi.ext.o.get k = some v ∧ 0 ≤ v)
    (hb : oi.boot = .none) (hok : OptOK oi.ext.o.shape.length (axesOf oi.avg)) (w1 : World (PyVal ℝ)) :
    ∃ umu sigma shift r, HasPar oi.ext "unshifted_mu" umu ∧ HasPar oi.ext "sigma" sigma ∧ HasPar oi.ext "shift" shift ∧
      result .gamma I (gammaPrims c F emb) mids (.slot .crps) (unsaved o) w1 = .ok (some (.num r)) ∧
      r.shape = dropAxes (nums oi.ext.o.shape.length (axesOf oi.avg)) oi.ext.o.shape ∧
      ∃ Y m sd d : List Nat → ℝ,
        (∀ i, InB oi.ext.o.shape i → oi.ext.o.get i = some (Y i) ∧ umu.get i = some (m i) ∧ sigma.get i = some (sd i) ∧
          shift.get i = some (d i)) ∧
        ∀ k, InB r.shape k →
          let L := fiberIdx oi.ext.o.shape (nums oi.ext.o.shape.length (axesOf oi.avg)) k
          let G := fun i => censoredGammaCdf (m i) (sd i) (d i)
          r.get k = some (crpsReliability L G Y - crpsResolution L G Y + crpsUncertainty L Y) ∧
          0 ≤ crpsReliability L G Y ∧ 0 ≤ crpsResolution L G Y := by
  obtain ⟨-, sigma', shift', umu', -, hs', hd', hm'⟩ := gamma_ready h
  obtain ⟨umu, sigma, shift, r, hm, hs, hd, r1, r2, r3⟩ := (C76_gamma_crps (I := I) h hG (fun umu sigma hm hs k hk => by
    obtain ⟨⟨a, ha, ha'⟩, ⟨b, hb, hb'⟩, -, ⟨y, hy, hy'⟩⟩ := hpos umu sigma shift' hm hs hd' k hk
    refine ⟨fun v hv => ?_, fun v hv => ?_, fun v hv => ?_⟩
    · rw [ha] at hv; cases hv; exact ha'
    · rw [hb] at hv; cases hv; exact hb'
    · rw [hy] at hv; cases hv; exact hy') hb hok w1).2 htr
  have hp := hpos umu sigma shift hm hs hd
  have hv : ∀ i, InB oi.ext.o.shape i → (oi.ext.o.get i = some ((oi.ext.o.get i).getD 0) ∧
      umu.get i = some ((umu.get i).getD 0) ∧ sigma.get i = some ((sigma.get i).getD 0) ∧
      shift.get i = some ((shift.get i).getD 0)) ∧ 0 < (umu.get i).getD 0 ∧ 0 < (sigma.get i).getD 0 ∧
      0 ≤ (oi.ext.o.get i).getD 0 := by
    intro i hi
    obtain ⟨⟨a, ha, ha'⟩, ⟨b, hb, hb'⟩, ⟨d, hd⟩, ⟨y, hy, hy'⟩⟩ := hp i hi
    simp only [hy, ha, hb, hd, Option.getD_some]
    exact ⟨⟨trivial, trivial, trivial, trivial⟩, ha', hb', hy'⟩
  refine ⟨umu, sigma, shift, r, hm, hs, hd, r1, r2, fun i => (oi.ext.o.get i).getD 0, fun i => (umu.get i).getD 0,
    fun i => (sigma.get i).getD 0, fun i => (shift.get i).getD 0, fun i hi => (hv i hi).1, fun k hk => ?_⟩
  have hin : ∀ i ∈ fiberIdx oi.ext.o.shape (nums oi.ext.o.shape.length (axesOf oi.avg)) k, InB oi.ext.o.shape i :=
    fun i hi => (mem_fiberIdx.1 hi).1
  have hne := fiberIdx_ne h0 (r2 ▸ hk)
  obtain ⟨d1, d2, d3⟩ := crps_decomp hne
    (fun i => censoredGammaCdf ((umu.get i).getD 0) ((sigma.get i).getD 0) ((shift.get i).getD 0))
    (fun i => (oi.ext.o.get i).getD 0) fun i hi j hj _ =>
      (crps_censoredGamma (hv i (hin i hi)).2.1 (hv i (hin i hi)).2.2.1 (hv j (hin j hj)).2.2.2).1
  refine ⟨?_, reliability_nonneg _ _ _, resolution_nonneg _ _ _⟩
  rw [← d3]
  refine isAvg_some hne (fun i hi => ?_) (r3 k hk)
  obtain ⟨⟨e1, e2, e3, e4⟩, -⟩ := hv i (hin i hi)
  rw [e1, e2, e3, e4]
  simp

section brier
variable {K : Type} [Field K] [LinearOrder K] [IsStrictOrderedRing K] [FloorSemiring K]
variable {X : Type} {obs : X → NDArr (Fl K)}

theorem isAvg_some' {α : Type} {skip : Bool} {L : List α} {g : α → Fl K} {h : α → K} {v : Fl K} (hL : L ≠ [])
    (e : ∀ a ∈ L, g a = some (h a)) (hv : IsAvg skip (L.map g) v) : v = some (avg (L.map h)) := by
  have e1 : L.map g = (L.map h).map some := by
    rw [List.map_map]
    exact List.map_congr_left fun a ha => e a ha
  rw [e1] at hv
  have e2 : present ((L.map h).map some) = L.map h := by
    unfold present
    rw [filterMap_id_map_some]
  rw [IsAvg, e2, if_neg] at hv
  · exact hv
  · simp [hL]

/-- **C98**, Brier score of any probabilistic class: if `cdf(...)` returns `p` without missing values, `brier(...)` at
every kept position is reliability minus resolution plus uncertainty, over the pooled positions grouped by their
probability. If all pooled positions have the same probability `q`, it is `(q - b)² + b (1 - b)` for the frequency `b` of
the event, so it is smallest for `q = b` and for no other `q`. -/
theorem C98_brier {C : Cls} {I : ArgInfo A} {mids : FS (PyVal K) → Path → List (FS (PyVal K))} {c : Cfg K}
    {emb : A → Arg K} {P : Prims X (PyVal K) A} (hP : Shared c obs emb P) {o : Obj X} {a : A} {t : Thr K}
    (hemb : emb a = .thr t) (isOver : Bool) {axes : Option (List Int)} (hb : o.boot = .none)
    (hax : axisArg o.avg = .ok axes) {w0 : World (PyVal K)} {p : NDArr (Fl K)}
    (hp : result C I P mids (.slot (.cdf (overArg isOver a) (belowArg isOver a))) (unsaved o) w0 = .ok (some (.num p)))
    (ht : ThrOK t (obs o.ext).shape) (hsh : p.shape = (obs o.ext).shape) (h0 : 0 ∉ (obs o.ext).shape)
    (hpn : none ∉ p.data) (hok : OptOK (obs o.ext).shape.length axes) (w : World (PyVal K)) :
    ∃ r, result C I P mids (.slot (.brier (overArg isOver a) (belowArg isOver a))) (unsaved o) w =
        .ok (some (.num r)) ∧
      r.shape = dropAxes (nums (obs o.ext).shape.length axes) (obs o.ext).shape ∧
      ∃ q : List Nat → K, (∀ i, InB (obs o.ext).shape i → p.get i = some (q i)) ∧
        ∀ k, InB r.shape k →
          let L := fiberIdx (obs o.ext).shape (nums (obs o.ext).shape.length axes) k
          let e := fun i => (indicator (Event isOver t (obs o.ext) i) : K)
          r.get k = some (brierReliability L q e - brierResolution L q e + brierUncertainty (avg (L.map e))) ∧
          ∀ v, (∀ i ∈ L, q i = v) →
            r.get k = some ((v - avg (L.map e)) ^ 2 + avg (L.map e) * (1 - avg (L.map e))) := by
  obtain ⟨r, r1, r2, r3⟩ := C75_brier (C := C) (I := I) (mids := mids) hP hemb isOver hb hax hp ht hsh hok w
  have hq : ∀ i, InB (obs o.ext).shape i → p.get i = some ((p.get i).getD 0) := fun i hi => by
    obtain ⟨v, hv⟩ := get_some hpn (k := i) (by rw [hsh]; exact hi)
    simp [hv]
  refine ⟨r, r1, r2, fun i => (p.get i).getD 0, hq, fun k hk => ?_⟩
  have hne := fiberIdx_ne h0 (r2 ▸ hk)
  have hs : ∀ i ∈ fiberIdx (obs o.ext).shape (nums (obs o.ext).shape.length axes) k,
      (indicator (Event isOver t (obs o.ext) i) : K) ^ 2 = indicator (Event isOver t (obs o.ext) i) := by
    intro i _
    unfold indicator
    split <;> simp
  have hv := isAvg_some' hne (fun i hi => by rw [hq i (mem_fiberIdx.1 hi).1]; rfl) (r3 k hk)
  refine ⟨?_, fun v hv' => ?_⟩
  · rw [← brier_decomp_groups hne _ hs]
    exact hv
  · rw [hv]
    have h1 := avg_sq_split hne (fun i => (indicator (Event isOver t (obs o.ext) i) : K)) v
    have h2 := zero_one_variance hne hs
    rw [h2] at h1
    rw [brierUncertainty] at h1
    rw [← h1]
    congr 2
    refine List.map_congr_left fun i hi => ?_
    beta_reduce
    rw [show (p.get i).getD 0 = v from hv' i hi]

end brier

/-! ### cases -/

/-- members 1 and 3 at both positions, observations 3 and 1 -/
noncomputable def ensClim : Obj (EnsX ℝ) := ⟨.none, .none, .none, some true,
  ⟨⟨[2, 2], [some 1, some 1, some 3, some 3], rfl⟩, ⟨[2], [some 3, some 1], rfl⟩, some 0,
    fun f ax => reduceAxes mean f (some [ax]), none⟩⟩

/-- The members are distributed like the observations, so the score is half their mean absolute difference: 1/2. -/
example : ∃ o w' r, construct (ensPrims cfgR embReal) noMids ensClim world0 = (.ok o, w') ∧
    result .ensemble realInfo (ensPrims cfgR embReal) noMids (.slot .crps) (unsaved o) world0 = .ok (some (.num r)) ∧
    r.get [] = some (1 / 2) := by
  have hf : none ∉ ensClim.ext.f.data := by simp [ensClim]
  have ho : none ∉ ensClim.ext.o.data := by simp [ensClim]
  have h : ∃ o w', construct (ensPrims cfgR embReal) noMids ensClim world0 = (.ok o, w') := ⟨_, _, rfl⟩
  obtain ⟨o, w', h⟩ := h
  obtain ⟨ax, r, a1, r1, Y, hY, v⟩ := C98_proper (I := realInfo) h rfl psScore_energy (split := false)
    (fun _ _ _ => rfl) (by simp [ensClim]) (by simp [ensClim]) hf ho trivial world0
  obtain ⟨ax', r', a1', r1', s, -⟩ := C98_ens (I := realInfo) h rfl psScore_energy (split := false)
    (fun _ _ _ => rfl) (by simp [ensClim]) (by simp [ensClim]) hf ho trivial world0
  rw [r1] at r1'
  cases r1'
  refine ⟨o, w', r, h, r1, ?_⟩
  have hs : r.shape = [] := by rw [s]; rfl
  have hk : InB r.shape [] := by rw [hs]; trivial
  obtain ⟨_, fc, d1, -, -, -, -, d2, -⟩ := C75_construct_ens h
  have d3 := d1.axis
  rw [a1, d2 0 rfl] at d3
  cases d3
  have L : fiberIdx ensClim.ext.o.shape (nums ensClim.ext.o.shape.length (axesOf ensClim.avg)) [] = [[0], [1]] := by
    decide
  have f0 : some 3 = some (Y [0]) := hY [0] (by decide)
  have f1 : some 1 = some (Y [1]) := hY [1] (by decide)
  obtain ⟨x, x1, -, -, x2⟩ := v [] hk [1, 3] (by
    rw [L]
    intro i hi
    simp only [List.mem_cons, List.not_mem_nil, or_false] at hi
    rcases hi with rfl | rfl <;> rfl)
  rw [L] at x2
  rw [x1, x2.2]
  · simp only [crpsUncertainty, List.map_cons, List.map_nil, ← Option.some.inj f0, ← Option.some.inj f1]
    norm_num [avg, abs_of_neg, abs_of_pos]
  · funext t
    simp only [List.map_cons, List.map_nil, ← Option.some.inj f0, ← Option.some.inj f1, ecdf, List.sum_cons, List.sum_nil,
      List.length_cons, List.length_nil]
    ring

/-- a forecast of 1/2 for two events of three: reliability 1/36, no resolution -/
example : brierReliability [0, 1, 2] (fun _ : ℕ => (1 / 2 : ℚ)) (fun i => if i < 2 then 1 else 0) = 1 / 36 ∧
    brierResolution [0, 1, 2] (fun _ : ℕ => (1 / 2 : ℚ)) (fun i => if i < 2 then 1 else 0) = 0 ∧
    brierUncertainty (2 / 3 : ℚ) = 2 / 9 := by
  refine ⟨?_, ?_, ?_⟩
  · norm_num [brierReliability, alike, avg]
  · norm_num [brierResolution, alike, avg]
  · norm_num [brierUncertainty]

/-- real thresholds for integer arguments -/
noncomputable def embIntR (i : Int) : Arg ℝ := .thr (.scalar (some (i : ℝ)))

theorem two_positions {k : List Nat} (hk : InB [2] k) : k = [0] ∨ k = [1] := by
  rw [← mem_allIdx] at hk
  simpa [allIdx, List.range_succ] using hk

/-- the hypotheses on the truncated Gaussian class -/
example : ∃ o w r, construct (gaussPrims caseCfg fnsR embIntR) noMids (probObj (gaussX true)) world0 = (.ok o, w) ∧
    result .gaussian intInfo (gaussPrims caseCfg fnsR embIntR) noMids (.slot .crps) (unsaved o) world0 =
      .ok (some (.num r)) ∧ r.shape = [] := by
  have h : ∃ o w, construct (gaussPrims caseCfg fnsR embIntR) noMids (probObj (gaussX true)) world0 = (.ok o, w) :=
    ⟨_, _, rfl⟩
  obtain ⟨o, w, h⟩ := h
  obtain ⟨mu, sigma, r, -, -, r1, r2, -⟩ := C98_gauss (I := intInfo) h rfl rfl (by decide) (by simp [probObj, gaussX])
    (fun mu hm => by
      obtain rfl := hasPar_unique hm (b := ⟨[2], [some 1, some 3], rfl⟩) ⟨rfl, rfl⟩
      simp)
    (fun sigma hs k hk => by
      obtain rfl := hasPar_unique hs (b := ⟨[2], [some 1, some 2], rfl⟩) ⟨rfl, rfl⟩
      rcases two_positions hk with rfl | rfl <;> simp [NDArr.get, ravel]) rfl trivial world0
  exact ⟨o, w, r, h, r1, by rw [r2]; rfl⟩

/-- the hypotheses on the gamma class -/
example : ∃ o w r, construct (gammaPrims caseCfg fnsR embIntR) noMids (probObj (gammaX false)) world0 = (.ok o, w) ∧
    result .gamma intInfo (gammaPrims caseCfg fnsR embIntR) noMids (.slot .crps) (unsaved o) world0 =
      .ok (some (.num r)) ∧ r.shape = [] := by
  have h : ∃ o w, construct (gammaPrims caseCfg fnsR embIntR) noMids (probObj (gammaX false)) world0 = (.ok o, w) :=
    ⟨_, _, rfl⟩
  obtain ⟨o, w, h⟩ := h
  obtain ⟨umu, sigma, shift, r, -, -, -, r1, r2, -⟩ := C98_gamma (I := intInfo) h rfl rfl (by decide)
    (fun umu sigma shift hm hs hd k hk => by
      obtain rfl := hasPar_unique hm (b := ⟨[2], [some 1, some 2], rfl⟩) ⟨rfl, rfl⟩
      obtain rfl := hasPar_unique hs (b := ⟨[2], [some 1, some 2], rfl⟩) ⟨rfl, rfl⟩
      obtain rfl := hasPar_unique hd (b := ⟨[2], [some 0, some 1], rfl⟩) ⟨rfl, rfl⟩
      rcases two_positions hk with rfl | rfl <;> simp [NDArr.get, ravel, probObj, gammaX, gaussX]) rfl trivial world0
  exact ⟨o, w, r, h, r1, by rw [r2]; rfl⟩

/-- the hypotheses on the Brier score: probabilities 0 and 1/2 of more than 2, observations 0 and 4 -/
example : ∃ o w p r, construct (gaussPrims caseCfg fnsQ embInt) noMids (probObj (gaussX false)) world0 = (.ok o, w) ∧
    result .gaussian intInfo (gaussPrims caseCfg fnsQ embInt) noMids (.slot (.cdf (some 2) none)) (unsaved o) w =
      .ok (some (.num p)) ∧ none ∉ p.data ∧
    result .gaussian intInfo (gaussPrims caseCfg fnsQ embInt) noMids (.slot (.brier (some 2) none)) (unsaved o) w =
      .ok (some (.num r)) ∧ r.shape = [] := by
  have h : ∃ o w, construct (gaussPrims caseCfg fnsQ embInt) noMids (probObj (gaussX false)) world0 = (.ok o, w) ∧
      numOf (result .gaussian intInfo (gaussPrims caseCfg fnsQ embInt) noMids (.slot (.cdf (some 2) none)) (unsaved o) w) =
      some ([2], [some 0, some (1 / 2)]) := ⟨_, _, rfl, by decide +kernel⟩
  obtain ⟨o, w, h, hn⟩ := h
  obtain ⟨e, -, hb, hax⟩ := construct_prob (shared_gauss caseCfg fnsQ embInt) h
  obtain ⟨p, hp, hsh, hd⟩ : ∃ p, result .gaussian intInfo (gaussPrims caseCfg fnsQ embInt) noMids
      (.slot (.cdf (some 2) none)) (unsaved o) w = .ok (some (.num p)) ∧ p.shape = [2] ∧
      p.data = [some 0, some (1 / 2)] := by
    revert hn
    generalize result _ _ _ _ _ _ _ = q
    intro hn
    rcases q with q | (_ | q) <;> simp only [Model.numOf] at hn
    · cases hn
    · cases hn
    · cases q <;> simp at hn
      rename_i a
      exact ⟨a, rfl, hn.1, by simpa using hn.2⟩
  have he : o.ext.o.shape = [2] := by rw [e]; rfl
  have hpn : none ∉ p.data := by rw [hd]; simp
  obtain ⟨r, r1, r2, -⟩ := C98_brier (C := .gaussian) (I := intInfo) (mids := noMids)
    (shared_gauss caseCfg fnsQ embInt).base (a := 2) (t := .scalar (some 2)) rfl true hb hax hp trivial
    (by rw [hsh, he]) (by rw [he]; decide) hpn trivial w
  exact ⟨o, w, p, r, h, hp, hpn, r1, by rw [r2, he]; rfl⟩

end Props
