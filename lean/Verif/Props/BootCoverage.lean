import Verif.Lemmas.BootCover
import Verif.Props.EndToEnd

/-!
# How often a bootstrap interval holds the truth: C136
-/

set_option linter.unusedSectionVars false

namespace Props
open Np NDArr Model Spec Lemmas MeasureTheory ProbabilityTheory Filter Topology

variable {Ω Ω' : Type} [MeasurableSpace Ω] [MeasurableSpace Ω'] {P : Measure Ω} [IsProbabilityMeasure P] {Q : Measure Ω'}
  [IsProbabilityMeasure Q] {Z : ℕ → Ω → ℝ} {n : ℕ → ℕ} {U : ℕ → ℕ → ℕ → Ω' → ℕ} {c conf z : ℝ} {skip : Bool}

/-- **C136**, `boot_vec`. The data are independent random numbers `Z` with the same probabilities and a positive finite
variance, and `n N` of `N` data are drawn, `n N / N` approaching `c`. With `N` large and then enough repeats, the interval
holds the expectation of the data with a probability as close as one likes to `1 - 2 Φ(-z / √c)`, where `z` is the normal
quantile `Φ(z) = (1 + conf) / 2`. -/
theorem C136_boot_vec (hZ : ∀ t, Measurable (Z t)) (hi : iIndepFun Z P) (hs : ∀ t, IdentDistrib (Z t) (Z 0) P P)
    (h2 : MemLp (Z 0) 2 P) (hv : 0 < Var[Z 0; P]) (hU : ∀ N, 0 < N → FairDraws Q N (U N)) (hc : 0 < c)
    (hn : Tendsto (fun N => (n N : ℝ) / N) atTop (𝓝 c)) (h0 : 0 < conf) (h1 : conf < 1) (hz : Phi z = (1 + conf) / 2) :
    LongRunProb (P.prod Q) (fun N R => {p | Covers (∫ ω, Z 0 ω ∂P)
      (bootVec (firstDays Z N p.1) (n N) R conf skip fun r j => U N r j p.2)}) (1 - 2 * Phi (-(z / √c))) :=
  fun _ hε => cover_limit hZ hU hi hs h2 hv hc hn h0 h1 hz skip hε

theorem nominal_value (hz : Phi z = (1 + conf) / 2) : 1 - 2 * Phi (-(z / √1)) = conf := by
  rw [Real.sqrt_one, div_one, Phi_neg, hz]; ring

theorem z_pos (h0 : 0 < conf) (hz : Phi z = (1 + conf) / 2) : 0 < z := by
  by_contra hcc
  have a := strictMono_Phi.monotone (not_lt.1 hcc)
  have b := Phi_neg 0
  rw [neg_zero] at b
  linarith

/-- **C136**, as many draws as data: the probability approaches the requested confidence. -/
theorem C136_nominal (hZ : ∀ t, Measurable (Z t)) (hi : iIndepFun Z P) (hs : ∀ t, IdentDistrib (Z t) (Z 0) P P)
    (h2 : MemLp (Z 0) 2 P) (hv : 0 < Var[Z 0; P]) (hU : ∀ N, 0 < N → FairDraws Q N (U N)) (h0 : 0 < conf) (h1 : conf < 1)
    (hz : Phi z = (1 + conf) / 2) :
    LongRunProb (P.prod Q) (fun N R => {p | Covers (∫ ω, Z 0 ω ∂P)
      (bootVec (firstDays Z N p.1) N R conf skip fun r j => U N r j p.2)}) conf := by
  have hn : Tendsto (fun N : ℕ => ((id N : ℕ) : ℝ) / N) atTop (𝓝 1) := by
    refine tendsto_const_nhds.congr' ?_
    filter_upwards [eventually_gt_atTop 0] with N hN
    have : (N : ℝ) ≠ 0 := by exact_mod_cast hN.ne'
    exact (div_self this).symm
  have := C136_boot_vec (skip := skip) hZ hi hs h2 hv hU one_pos hn h0 h1 hz
  rw [nominal_value hz] at this
  exact this

/-- **C136**, the number of draws matters: with fewer draws than data the probability is greater than the requested
confidence, with more draws it is less. -/
theorem C136_draws (h0 : 0 < conf) (hz : Phi z = (1 + conf) / 2) (hc : 0 < c) :
    (c < 1 → conf < 1 - 2 * Phi (-(z / √c))) ∧ (1 < c → 1 - 2 * Phi (-(z / √c)) < conf) := by
  have hzp := z_pos h0 hz
  have hsc : 0 < √c := Real.sqrt_pos.2 hc
  have e := nominal_value hz
  rw [Real.sqrt_one, div_one] at e
  constructor
  · intro h
    have hs : √c < 1 := by rw [Real.sqrt_lt' one_pos]; simpa using h
    have : z < z / √c := by rw [lt_div_iff₀ hsc]; nlinarith
    have := strictMono_Phi (neg_lt_neg this)
    linarith
  · intro h
    have hs : 1 < √c := by rw [Real.lt_sqrt zero_le_one]; simpa using h
    have : z / √c < z := by rw [div_lt_iff₀ hsc]; nlinarith
    have := strictMono_Phi (neg_lt_neg this)
    linarith

/-! ### arrays -/

/-- the interval of a kept position -/
theorem boot_at {m : NDArr (Fl ℝ)} {axes : Option (List Int)} (hok : BootAxes m.shape.length axes) {k : List ℕ}
    (hk : InB (dropAxes (nums m.shape.length axes) m.shape) k) {l : List (Fl ℝ)}
    (hl : fiber m (nums m.shape.length axes) k = l) (hne : l ≠ []) (n reps : ℕ) (h0 : 0 ≤ conf) (h1 : conf ≤ 1)
    (draw : ℕ → ℕ → ℕ → ℕ) (μ : ℝ) :
    ∃ r, bootOrAvg skip axes (some n) reps conf draw m = .ok r ∧ (HoldsAt μ k r ↔ Covers μ (bootVec l n reps conf skip
      (draw (ravel (dropAxes (nums m.shape.length axes) m.shape) k)))) := by
  have main : ∀ a, GoodAxes m.shape.length a → a.map (axisNum m.shape.length) = nums m.shape.length axes →
      ∃ r, bootArr m (some a) n reps conf skip draw = .ok r ∧ (HoldsAt μ k r ↔ Covers μ (bootVec l n reps conf skip
        (draw (ravel (dropAxes (nums m.shape.length axes) m.shape) k)))) := by
    intro a hg e
    have hT : (takeAxes (nums m.shape.length axes) m.shape).prod ≠ 0 := by
      have : (fiber m (nums m.shape.length axes) k).length = (takeAxes (nums m.shape.length axes) m.shape).prod := by
        rw [fiber, List.length_map, length_fiberIdx hk]
      rw [← this, hl]
      exact fun h => hne (List.length_eq_zero_iff.1 h)
    have hD : (dropAxes (nums m.shape.length axes) m.shape).prod ≠ 0 := by
      have := ravel_lt hk
      omega
    have hvec : ∀ k', InB (dropAxes (nums m.shape.length axes) m.shape) k' → ∀ dr,
        ∃ t, bootVec (fiber m (nums m.shape.length axes) k') n reps conf skip dr = .ok t := by
      intro k' hk' dr
      have hl : fiber m (nums m.shape.length axes) k' ≠ [] := by
        intro h
        have h1 : (fiber m (nums m.shape.length axes) k').length = 0 := by rw [h]; rfl
        rw [fiber, List.length_map, length_fiberIdx hk'] at h1
        exact hT h1
      have hch : ∀ r, ∃ s, choice (fiber m (nums m.shape.length axes) k') n (dr r) = .ok s :=
        fun r => ⟨_, choice_total hl _ _⟩
      choose f hf using hch
      have hq : ∀ (ms : List (Fl ℝ)) (q : ℝ), 0 ≤ q ∧ q ≤ 1 → ∃ x, quantile ms q = .ok x := by
        intro ms q hq; unfold quantile; rw [if_pos hq]; split <;> exact ⟨_, rfl⟩
      obtain ⟨lo, hlo⟩ := hq (((List.range reps).map f).map (meanOf skip)) ((1 - conf) / 2) ⟨by linarith, by linarith⟩
      obtain ⟨hi, hhi⟩ := hq (((List.range reps).map f).map (meanOf skip)) (1 - (1 - conf) / 2) ⟨by linarith, by linarith⟩
      exact ⟨_, bootVec_ok.2 ⟨_, mapE_eq_map fun r _ => hf r, lo, hi, hlo, hhi, rfl⟩⟩
    obtain ⟨r, hr⟩ := bootArr_total (n := n) (reps := reps) (conf := conf) (skip := skip) (draw := draw) hg
      (by rw [e]; exact hD) (by rw [e]; exact fun k' hk' => hvec k' hk' _)
    obtain ⟨-, hlay⟩ := bootArr_layout hg hr
    rw [e] at hlay
    obtain ⟨t, ht, htg⟩ := hlay k hk
    rw [hl] at ht
    refine ⟨r, hr, ?_⟩
    obtain ⟨samples, -, lo, hi, -, -, rfl⟩ := bootVec_ok.1 ht
    have g0 := htg 0 (by omega)
    have g1 := htg 1 (by omega)
    have g2 := htg 2 (by omega)
    unfold HoldsAt Covers
    rw [g0, g1, g2, ht]
    constructor
    · rintro ⟨a, b, d, e1, e2, e3, e4⟩
      change lo = some a at e1
      change mean _ = some b at e2
      change hi = some d at e3
      exact ⟨a, b, d, by rw [e1, e2, e3], e4⟩
    · rintro ⟨a, b, d, e1, e4⟩
      simp only [Except.ok.injEq, List.cons.injEq, and_true] at e1
      exact ⟨a, b, d, e1.1, e1.2.1, e1.2.2, e4⟩
  cases axes with
  | some a => exact main a (goodAxes_boot hok) rfl
  | none =>
    refine main _ (goodAxes_all _) ?_
    have e := axisNum_inj_nonneg (n := m.shape.length) (l := (List.range m.shape.length).map Int.ofNat)
      (fun x hx => by
        obtain ⟨y, -, rfl⟩ := List.mem_map.1 hx
        exact Int.natCast_nonneg y)
    refine e.trans ?_
    rw [List.map_map]
    exact List.map_id _

theorem firstDays_ne {N : ℕ} (hN : 0 < N) (ω : Ω) : firstDays Z N ω ≠ [] := by
  unfold firstDays
  simp; omega

theorem longRun_congr {W : Measure Ω} {A B : ℕ → ℕ → Set Ω} {p : ℝ} (h : LongRunProb W A p)
    (hAB : ∀ N R, 0 < N → A N R = B N R) : LongRunProb W B p := by
  intro ε hε
  filter_upwards [h ε hε, eventually_gt_atTop 0] with N hN hN0
  filter_upwards [hN] with R hR
  rwa [← hAB N R hN0]

/-- from `boot_vec` to `boot_arr` -/
theorem longRun_arr {μ q : ℝ} (h0 : 0 ≤ conf) (h1 : conf ≤ 1)
    (hlim : LongRunProb (P.prod Q) (fun N R => {p | Covers μ
      (bootVec (firstDays Z N p.1) (n N) R conf skip fun r j => U N r j p.2)}) q)
    {m : ℕ → Ω → NDArr (Fl ℝ)} {axes : Option (List Int)} (hok : ∀ N ω, BootAxes (m N ω).shape.length axes) {k : List ℕ}
    (hk : ∀ N ω, 0 < N → InB (dropAxes (nums (m N ω).shape.length axes) (m N ω).shape) k)
    (hdata : ∀ N ω, 0 < N → fiber (m N ω) (nums (m N ω).shape.length axes) k = firstDays Z N ω)
    {draw : ℕ → Ω' → ℕ → ℕ → ℕ → ℕ}
    (hdraw : ∀ N ω ω' r j, draw N ω' (ravel (dropAxes (nums (m N ω).shape.length axes) (m N ω).shape) k) r j = U N r j ω') :
    LongRunProb (P.prod Q) (fun N R => {p | ∃ r, bootArr (m N p.1) axes (n N) R conf skip (draw N p.2) = .ok r ∧
      HoldsAt μ k r}) q := by
  refine longRun_congr hlim fun N R hN => ?_
  ext ⟨ω, ω'⟩
  simp only [Set.mem_ofPred_eq]
  obtain ⟨r, hr, hiff⟩ := boot_at (skip := skip) (hok N ω) (hk N ω hN) (hdata N ω hN) (firstDays_ne hN ω) (n N) R h0 h1
    (draw N ω') μ
  have hr' : bootArr (m N ω) axes (n N) R conf skip (draw N ω') = .ok r := hr
  have hd : draw N ω' (ravel (dropAxes (nums (m N ω).shape.length axes) (m N ω).shape) k) = fun r j => U N r j ω' := by
    funext r j; exact hdraw N ω ω' r j
  rw [hd] at hiff
  rw [← hiff, hr']
  constructor
  · exact fun h => ⟨r, rfl, h⟩
  · rintro ⟨r', e, h⟩
    cases e
    exact h

/-- **C136**, `boot_arr`: the same for every position of an array that is kept, the averaged axes being any of its axes, as
long as the numbers averaged there are the data. -/
theorem C136_boot_arr (hZ : ∀ t, Measurable (Z t)) (hi : iIndepFun Z P) (hs : ∀ t, IdentDistrib (Z t) (Z 0) P P)
    (h2 : MemLp (Z 0) 2 P) (hv : 0 < Var[Z 0; P]) (hU : ∀ N, 0 < N → FairDraws Q N (U N)) (hc : 0 < c)
    (hn : Tendsto (fun N => (n N : ℝ) / N) atTop (𝓝 c)) (h0 : 0 < conf) (h1 : conf < 1) (hz : Phi z = (1 + conf) / 2)
    {m : ℕ → Ω → NDArr (Fl ℝ)} {axes : Option (List Int)} (hok : ∀ N ω, BootAxes (m N ω).shape.length axes) {k : List ℕ}
    (hk : ∀ N ω, 0 < N → InB (dropAxes (nums (m N ω).shape.length axes) (m N ω).shape) k)
    (hdata : ∀ N ω, 0 < N → fiber (m N ω) (nums (m N ω).shape.length axes) k = firstDays Z N ω)
    {draw : ℕ → Ω' → ℕ → ℕ → ℕ → ℕ}
    (hdraw : ∀ N ω ω' r j, draw N ω' (ravel (dropAxes (nums (m N ω).shape.length axes) (m N ω).shape) k) r j = U N r j ω') :
    LongRunProb (P.prod Q) (fun N R => {p | ∃ r, bootArr (m N p.1) axes (n N) R conf skip (draw N p.2) = .ok r ∧
      HoldsAt (∫ ω, Z 0 ω ∂P) k r}) (1 - 2 * Phi (-(z / √c))) :=
  longRun_arr h0.le h1.le (C136_boot_vec hZ hi hs h2 hv hU hc hn h0 h1 hz) hok hk hdata hdraw

/-! ### the metrics -/

variable {A X : Type} {C : Cls} {I : ArgInfo A} {mids : FS (PyVal ℝ) → Model.Path → List (FS (PyVal ℝ))}
  {obs : X → NDArr (Fl ℝ)} {emb : A → Arg ℝ}

/-- from `boot_vec` to the metrics -/
theorem longRun_errors {μ q' : ℝ} (h0 : 0 ≤ conf) (h1 : conf ≤ 1) (hnp : ∀ᶠ N in atTop, 0 < n N)
    (hlim : LongRunProb (P.prod Q) (fun N R => {p | Covers μ
      (bootVec (firstDays Z N p.1) (n N) R conf false fun r j => U N r j p.2)}) q')
    {cf : ℕ → ℕ → Ω' → Cfg ℝ} {Pr : ℕ → ℕ → Ω' → Prims X (PyVal ℝ) A} (hP : ∀ N R ω', Shared (cf N R ω') obs emb (Pr N R ω'))
    (hcf : ∀ N R ω', (cf N R ω').reps = R ∧ (cf N R ω').conf = conf) {o : ℕ → Ω → Obj X}
    (hb : ∀ N ω, (o N ω).boot = .int (n N)) {axes : Option (List Int)} (hax : ∀ N ω, axisArg (o N ω).avg = .ok axes)
    {w : ℕ → ℕ → Ω → Ω' → World (PyVal ℝ)} {f : ℕ → Ω → NDArr (Fl ℝ)}
    (hf : ∀ N R ω ω', ∃ w0, result C I (Pr N R ω') mids (.slot .fDeterm) (unsaved (o N ω)) w0 = .ok (some (.num (f N ω))))
    (hsh : ∀ N ω, (f N ω).shape = (obs (o N ω).ext).shape) (hok : ∀ N ω, BootAxes (f N ω).shape.length axes) {k : List ℕ}
    (hk : ∀ N ω, 0 < N → InB (dropAxes (nums (f N ω).shape.length axes) (f N ω).shape) k) {s : Slot A} {g : ℝ → ℝ → ℝ}
    (hsg : (s = .error ∧ g = fun x y => x - y) ∨ (s = .abError ∧ g = fun x y => |x - y|) ∨
      (s = .sqError ∧ g = fun x y => (x - y) ^ 2))
    (hdata : ∀ N ω, 0 < N → (pairsAt (f N ω) (obs (o N ω).ext) (nums (f N ω).shape.length axes) k).map (both g) =
      firstDays Z N ω)
    (hrng : ∀ N R ω ω' i r j, (cf N R ω').rng i 0 (ravel (dropAxes (nums (f N ω).shape.length axes) (f N ω).shape) k) r j =
      U N r j ω') :
    LongRunProb (P.prod Q) (fun N R => {p | Returns μ k
      (result C I (Pr N R p.2) mids (.slot s) (unsaved (o N p.1)) (w N R p.1 p.2))}) q' := by
  have key : ∀ N R ω ω', 0 < N → (Returns μ k
      (result C I (Pr N R ω') mids (.slot s) (unsaved (o N ω)) (w N R ω ω')) ↔ Covers μ
      (bootVec (firstDays Z N ω) (n N) R conf (cf N R ω').skipNan fun r j => U N r j ω')) := by
    intro N R ω ω' hN
    obtain ⟨w0, hfd⟩ := hf N R ω ω'
    obtain ⟨e, a, q, he, ha, hq, ⟨se, sa, sq⟩, hfib⟩ := error_bodies (hP N R ω') hfd (hsh N ω)
    have main : ∀ {nm : Option Name}, slotName I s = .ok nm → s.probOnly = false →
        slotPost (Pr N R ω') (o N ω).avg (o N ω).boot s = bootOrAvgP (Pr N R ω') (o N ω).avg (o N ω).boot .ok →
        ∀ m : NDArr (Fl ℝ), m.shape = (f N ω).shape → fiber m (nums (f N ω).shape.length axes) k = firstDays Z N ω →
        (∀ w, (slotBody C I (Pr N R ω') (o N ω).ext (o N ω).avg (o N ω).boot s).run none w = (.ok (.num m), w)) →
        (Returns μ k (result C I (Pr N R ω') mids (.slot s) (unsaved (o N ω)) (w N R ω ω')) ↔
          Covers μ
            (bootVec (firstDays Z N ω) (n N) R conf (cf N R ω').skipNan fun r j => U N r j ω')) := by
      intro nm hnm hp hpost m hm hd hbody
      obtain ⟨r, hr, hiff⟩ := boot_at (skip := (cf N R ω').skipNan) (m := m) (axes := axes) (by rw [hm]; exact hok N ω) (k := k)
        (by rw [hm]; exact hk N ω hN) (by rw [hm]; exact hd) (firstDays_ne hN ω) (n N) R h0 h1
        ((cf N R ω').rng ((w N R ω ω').seed (w N R ω ω').pos) 0) μ
      have hdr : (cf N R ω').rng ((w N R ω ω').seed (w N R ω ω').pos) 0
          (ravel (dropAxes (nums (f N ω).shape.length axes) (f N ω).shape) k) = fun r j => U N r j ω' := by
        funext r j; exact hrng N R ω ω' _ r j
      rw [hm, hdr] at hiff
      rw [← hiff, result_slot hp hnm (hbody _), hpost, boot_run (hP N R ω') (hb N ω) (hax N ω), (hcf N R ω').1,
        (hcf N R ω').2, hr]
      unfold Returns
      constructor
      · rintro ⟨r', e', h⟩
        have : r = r' := by
          have e2 : (Except.ok (some (PyVal.num r)) : Except Err (Option (PyVal ℝ))) = .ok (some (.num r')) := e'
          cases e2
          rfl
        rw [this]
        exact h
      · exact fun h => ⟨r, rfl, h⟩
    rcases hsg with ⟨rfl, rfl⟩ | ⟨rfl, rfl⟩ | ⟨rfl, rfl⟩
    · obtain ⟨n1, hn1⟩ := fixed_ok I (some "error".toList)
      exact main hn1 rfl rfl e se (by rw [(hfib _ k).1]; exact hdata N ω hN) he
    · obtain ⟨n1, hn1⟩ := fixed_ok I (some "ab_error".toList)
      exact main hn1 rfl rfl a sa (by rw [(hfib _ k).2.1]; exact hdata N ω hN) ha
    · obtain ⟨n1, hn1⟩ := fixed_ok I (some "sq_error".toList)
      exact main hn1 rfl rfl q sq (by rw [(hfib _ k).2.2]; exact hdata N ω hN) hq
  have skipless : ∀ N R ω ω' b b', 0 < N → 0 < n N → 0 < R → (Covers μ
      (bootVec (firstDays Z N ω) (n N) R conf b fun r j => U N r j ω') ↔ Covers μ
      (bootVec (firstDays Z N ω) (n N) R conf b' fun r j => U N r j ω')) := by
    intro N R ω ω' b b' hN hnN hR
    exact covers_skip (x := fun t => Z t ω) hN hnN hR h0 h1 b b' _
  intro ε hε
  filter_upwards [hlim ε hε, eventually_gt_atTop 0, hnp]
    with N hlim hN hnN
  filter_upwards [hlim, eventually_gt_atTop 0] with R hR hR0
  have : {p : Ω × Ω' | Returns μ k
      (result C I (Pr N R p.2) mids (.slot s) (unsaved (o N p.1)) (w N R p.1 p.2))} = {p | Covers μ
      (bootVec (firstDays Z N p.1) (n N) R conf false fun r j => U N r j p.2)} := by
    ext ⟨ω, ω'⟩
    exact (key N R ω ω' hN).trans (skipless N R ω ω' _ _ hN hnN hR0)
  rwa [this]

/-- **C136**, any class: `error()`, `ab_error()` and `sq_error()` with `boot_samples = n N`, in archives of growing length.
The numbers averaged at position `k` are the differences `Z` (their absolute values, their squares) of forecast and
observation; the generator gives the numbers `U`. -/
theorem C136_errors (hZ : ∀ t, Measurable (Z t)) (hi : iIndepFun Z P) (hs : ∀ t, IdentDistrib (Z t) (Z 0) P P)
    (h2 : MemLp (Z 0) 2 P) (hv : 0 < Var[Z 0; P]) (hU : ∀ N, 0 < N → FairDraws Q N (U N)) (hc : 0 < c)
    (hn : Tendsto (fun N => (n N : ℝ) / N) atTop (𝓝 c)) (h0 : 0 < conf) (h1 : conf < 1) (hz : Phi z = (1 + conf) / 2)
    {cf : ℕ → ℕ → Ω' → Cfg ℝ} {Pr : ℕ → ℕ → Ω' → Prims X (PyVal ℝ) A} (hP : ∀ N R ω', Shared (cf N R ω') obs emb (Pr N R ω'))
    (hcf : ∀ N R ω', (cf N R ω').reps = R ∧ (cf N R ω').conf = conf) {o : ℕ → Ω → Obj X}
    (hb : ∀ N ω, (o N ω).boot = .int (n N)) {axes : Option (List Int)} (hax : ∀ N ω, axisArg (o N ω).avg = .ok axes)
    {w : ℕ → ℕ → Ω → Ω' → World (PyVal ℝ)} {f : ℕ → Ω → NDArr (Fl ℝ)}
    (hf : ∀ N R ω ω', ∃ w0, result C I (Pr N R ω') mids (.slot .fDeterm) (unsaved (o N ω)) w0 = .ok (some (.num (f N ω))))
    (hsh : ∀ N ω, (f N ω).shape = (obs (o N ω).ext).shape) (hok : ∀ N ω, BootAxes (f N ω).shape.length axes) {k : List ℕ}
    (hk : ∀ N ω, 0 < N → InB (dropAxes (nums (f N ω).shape.length axes) (f N ω).shape) k) {s : Slot A} {g : ℝ → ℝ → ℝ}
    (hsg : (s = .error ∧ g = fun x y => x - y) ∨ (s = .abError ∧ g = fun x y => |x - y|) ∨
      (s = .sqError ∧ g = fun x y => (x - y) ^ 2))
    (hdata : ∀ N ω, 0 < N → (pairsAt (f N ω) (obs (o N ω).ext) (nums (f N ω).shape.length axes) k).map (both g) =
      firstDays Z N ω)
    (hrng : ∀ N R ω ω' i r j, (cf N R ω').rng i 0 (ravel (dropAxes (nums (f N ω).shape.length axes) (f N ω).shape) k) r j =
      U N r j ω') :
    LongRunProb (P.prod Q) (fun N R => {p | Returns (∫ ω, Z 0 ω ∂P) k
      (result C I (Pr N R p.2) mids (.slot s) (unsaved (o N p.1)) (w N R p.1 p.2))}) (1 - 2 * Phi (-(z / √c))) :=
  longRun_errors h0.le h1.le (n_pos hc hn) (C136_boot_vec hZ hi hs h2 hv hU hc hn h0 h1 hz) hP hcf hb hax hf hsh hok hk hsg hdata
    hrng

end Props
