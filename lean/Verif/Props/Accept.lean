import Verif.Props.EndToEndProbCase

/-!
# What the constructors accept: C93
-/

set_option linter.unusedSectionVars false

namespace Props
open Np NDArr Spec Model Lemmas

variable {K : Type} [Field K] [LinearOrder K] [IsStrictOrderedRing K] [FloorSemiring K]
variable {A X : Type} {mids : FS (PyVal K) → Model.Path → List (FS (PyVal K))} {c : Cfg K} {F : ProbFns K}
  {emb : A → Arg K}

/-- the arguments that all classes share, without a working directory: `avg_axis` is `None`, an int, a list or a tuple,
`boot_samples` is `None` or an int, `start_from_scratch` is a bool -/
structure CommonArgs (oi : Obj X) : Prop where
  avg : oi.avg = .none ∨ (∃ i, oi.avg = .int i) ∨ (∃ l, oi.avg = .list l) ∨ ∃ l, oi.avg = .tuple l
  boot : oi.boot = .none ∨ ∃ n, oi.boot = .int n
  scratch : ∃ b, oi.scratch = some b

/-- the arguments that the probabilistic classes share -/
structure ProbArgs (x : ProbX K) : Prop where
  /-- `move_sampled_ens_axis` is an int -/
  axis : ∃ i, x.moveAxis = some i
  /-- `pit_randomize_zero_ranks` is a bool -/
  randomize : ∃ b, x.randomize = some b
  /-- `n_sample_members` is `None` or an int -/
  members : x.members = .none ∨ ∃ n, x.members = .val n
  /-- `clip_member_to_zero` is `None` or a float -/
  clip : x.clip = .none ∨ ∃ v, x.clip = .val v
  /-- `truncated` is a bool -/
  truncated : ∃ b, x.truncated = some b

/-- `k` is a key of the dictionary of parameters -/
def HasKey (x : ProbX K) (k : String) : Prop := ∃ a, x.f.lookup k = some a

theorem validate_common (P : Prims X (PyVal K) A) {oi : Obj X} (hd : oi.dir = .none) (w : World (PyVal K)) :
    (CommonArgs oi → ∃ a, validate P mids oi w =
      ((P.check oi.ext).1, { oi with avg := a, ext := (P.check oi.ext).2 }, w)) ∧
    (¬ CommonArgs oi → ∃ o, validate P mids oi w = (.error .assertion, o, w)) := by
  constructor
  · rintro ⟨h1, h2, b, h3⟩
    rcases h1 with h1 | ⟨i, h1⟩ | ⟨l, h1⟩ | ⟨l, h1⟩ <;> rcases h2 with h2 | ⟨n, h2⟩ <;>
      exact ⟨_, by simp only [validate, h1, h2, h3, hd, validateAxis, validateSaving]; rfl⟩
  · intro hn
    cases ha : oi.avg with
    | other => exact ⟨_, by simp only [validate, ha, validateAxis]; rfl⟩
    | _ =>
      all_goals
        cases hb : oi.boot with
        | other => exact ⟨_, by simp only [validate, ha, hb, validateAxis]; rfl⟩
        | _ =>
          all_goals
            cases hs : oi.scratch with
            | none => exact ⟨_, by simp only [validate, ha, hb, hs, validateAxis]; rfl⟩
            | some s => exact absurd ⟨by simp [ha], by simp [hb], s, hs⟩ hn

theorem construct_common (P : Prims X (PyVal K) A) {oi : Obj X} (hd : oi.dir = .none) (w : World (PyVal K))
    {D : Prop} (hok : D → (P.check oi.ext).1 = .ok () ∧ ∃ x, P.init (P.check oi.ext).2 = .ok x)
    (hno : ¬ D → (P.check oi.ext).1 = .error .assertion) :
    (CommonArgs oi ∧ D → ∃ o, construct P mids oi w = (.ok o, w)) ∧
    (¬ (CommonArgs oi ∧ D) → construct P mids oi w = (.error .assertion, w)) := by
  obtain ⟨h1, h2⟩ := validate_common (mids := mids) P hd w
  constructor
  · rintro ⟨hc, hD⟩
    obtain ⟨a, ha⟩ := h1 hc
    obtain ⟨hk, x, hx⟩ := hok hD
    exact ⟨_, by unfold construct; rw [ha, hk]; simp only [hx]; rfl⟩
  · intro hn
    by_cases hc : CommonArgs oi
    · obtain ⟨a, ha⟩ := h1 hc
      unfold construct
      rw [ha, hno fun hD => hn ⟨hc, hD⟩]
    · obtain ⟨o, ho⟩ := h2 hc
      unfold construct
      rw [ho]

/-- **C93**, deterministic class: the constructor returns exactly when the arguments have the documented types and the
two arrays have one shape; otherwise it raises `AssertionError`.  No file is touched. -/
theorem C93_determ {oi : Obj (DetX K)} (hd : oi.dir = .none) (w : World (PyVal K)) :
    let good := CommonArgs oi ∧ oi.ext.f.shape = oi.ext.o.shape
    (good → ∃ o, construct (detPrims c emb) mids oi w = (.ok o, w)) ∧
    (¬ good → construct (detPrims c emb) mids oi w = (.error .assertion, w)) := by
  intro good
  refine construct_common _ hd w (fun h => ?_) fun h => ?_
  · simp only [detPrims]
    exact ⟨if_pos h, _, rfl⟩
  · simp only [detPrims]
    exact if_neg h

/-- **C93**, ensemble class: it returns exactly when the arguments have the documented types, the given ensemble axis (or
the last, or else the first) leaves the shape of the observations, and the collapse function works on it. -/
theorem C93_ensemble {oi : Obj (EnsX K)} (hd : oi.dir = .none) (w : World (PyVal K)) :
    let fs := oi.ext.f.shape
    let os := oi.ext.o.shape
    (∃ o, construct (ensPrims c emb) mids oi w = (.ok o, w)) ↔ CommonArgs oi ∧ ∃ ax r, oi.ext.collapse oi.ext.f ax = .ok r ∧
      match oi.ext.axis with
      | none => fs ≠ [] ∧ ((fs.dropLast = os ∧ ax = -1) ∨ (fs.dropLast ≠ os ∧ fs.tail = os ∧ ax = 0))
      | some a => ax = a ∧ AxisOK fs.length a ∧ ((axisNum fs.length a = 0 ∧ fs.tail = os) ∨
          (axisNum fs.length a + 1 = fs.length ∧ fs.dropLast = os)) := by
  intro fs os
  obtain ⟨h1, h2⟩ := validate_common (mids := mids) (ensPrims c emb) hd w
  have key : ∀ ax, validateEnsembleAxis fs os oi.ext.axis = .ok ax ↔ (match oi.ext.axis with
      | none => fs ≠ [] ∧ ((fs.dropLast = os ∧ ax = -1) ∨ (fs.dropLast ≠ os ∧ fs.tail = os ∧ ax = 0))
      | some a => ax = a ∧ AxisOK fs.length a ∧ ((axisNum fs.length a = 0 ∧ fs.tail = os) ∨
          (axisNum fs.length a + 1 = fs.length ∧ fs.dropLast = os))) := by
    intro ax
    cases oi.ext.axis with
    | none => exact C55_guess fs os ax
    | some a => exact C55_explicit fs os a ax
  by_cases hc : CommonArgs oi
  · obtain ⟨a, ha⟩ := h1 hc
    simp only [← key]
    unfold construct
    rw [ha]
    simp only [ensPrims]
    cases hv : validateEnsembleAxis oi.ext.f.shape oi.ext.o.shape oi.ext.axis with
    | error e =>
      simp only
      constructor
      · rintro ⟨o, ho⟩
        cases ho
      · rintro ⟨-, ax, r, -, h⟩
        cases h
    | ok b =>
      simp only [EnsX.ax, bind, Except.bind, pure, Except.pure]
      cases hr : oi.ext.collapse oi.ext.f b with
      | error e =>
        simp only
        constructor
        · rintro ⟨o, ho⟩
          cases ho
        · rintro ⟨-, ax, r, hx, h⟩
          cases h
          rw [hr] at hx; cases hx
      | ok r => exact ⟨fun _ => ⟨hc, b, r, hr, rfl⟩, fun _ => ⟨_, rfl⟩⟩
  · obtain ⟨o, ho⟩ := h2 hc
    unfold construct
    rw [ho]
    constructor
    · rintro ⟨o, ho⟩
      cases ho
    · intro h
      exact absurd h.1 hc

theorem probSettings_iff (x : ProbX K) : probSettingsOK x = true ↔ ProbArgs x := by
  obtain ⟨f, o, mv, tr, ra, me, cl, nb, rg⟩ := x
  constructor
  · intro h
    simp only [probSettingsOK, Bool.and_eq_true, Option.isSome_iff_exists] at h
    obtain ⟨⟨⟨⟨h1, h2⟩, h3⟩, h4⟩, h5⟩ := h
    refine ⟨h1, h2, ?_, ?_, h5⟩
    · cases me <;> simp_all
    · cases cl <;> simp_all
  · rintro ⟨⟨a, ha⟩, ⟨b, hb⟩, hm, hc, d, hd⟩
    simp only at ha hb hm hc hd
    rcases hm with rfl | ⟨n, rfl⟩ <;> rcases hc with rfl | ⟨v, rfl⟩ <;> simp [probSettingsOK, ha, hb, hd]

theorem hasKey_iff (x : ProbX K) (k : String) : x.hasKey k = true ↔ HasKey x k := by
  unfold ProbX.hasKey HasKey
  exact Option.isSome_iff_exists

theorem dictOK_iff (x : ProbX K) (keys : List String) :
    dictOK x keys = true ↔ (∀ p ∈ x.f, p.2.shape = x.o.shape) ∧ ∀ k ∈ keys, HasKey x k := by
  simp only [dictOK, Bool.and_eq_true, List.all_eq_true, decide_eq_true_eq, hasKey_iff]

/-- **C93**, Gaussian class. -/
theorem C93_gauss {oi : Obj (ProbX K)} (hd : oi.dir = .none) (w : World (PyVal K)) :
    let good := CommonArgs oi ∧ ProbArgs oi.ext ∧ (∀ p ∈ oi.ext.f, p.2.shape = oi.ext.o.shape) ∧
      ∀ k ∈ ["mu", "sigma"], HasKey oi.ext k
    (good → ∃ o, construct (gaussPrims c F emb) mids oi w = (.ok o, w)) ∧
    (¬ good → construct (gaussPrims c F emb) mids oi w = (.error .assertion, w)) := by
  intro good
  refine construct_common _ hd w (fun h => ?_) fun h => ?_
  · simp only [gaussPrims]
    exact ⟨if_pos (by rw [Bool.and_eq_true, probSettings_iff, dictOK_iff]; exact h), _, rfl⟩
  · simp only [gaussPrims]
    exact if_neg (by rw [Bool.and_eq_true, probSettings_iff, dictOK_iff]; exact h)

/-- **C93**, gamma class. -/
theorem C93_gamma {oi : Obj (ProbX K)} (hd : oi.dir = .none) (w : World (PyVal K)) :
    let good := CommonArgs oi ∧ ProbArgs oi.ext ∧ (∀ p ∈ oi.ext.f, p.2.shape = oi.ext.o.shape) ∧
      ∀ k ∈ ["mu", "sigma", "shift", "unshifted_mu"], HasKey oi.ext k
    (good → ∃ o, construct (gammaPrims c F emb) mids oi w = (.ok o, w)) ∧
    (¬ good → construct (gammaPrims c F emb) mids oi w = (.error .assertion, w)) := by
  intro good
  refine construct_common _ hd w (fun h => ?_) fun h => ?_
  · simp only [gammaPrims]
    exact ⟨if_pos (by rw [Bool.and_eq_true, probSettings_iff, dictOK_iff]; exact h), _, rfl⟩
  · simp only [gammaPrims]
    exact if_neg (by rw [Bool.and_eq_true, probSettings_iff, dictOK_iff]; exact h)

/-- **C93**, hurdle class: the shapes of the parameters are not looked at, truncation is refused, and `n_approx_bins` and
`integration_range` are checked as well. -/
theorem C93_hurdle {ofNum : K → A} {oi : Obj (ProbX K)} (hd : oi.dir = .none) (w : World (PyVal K)) :
    let good := CommonArgs oi ∧ ProbArgs oi.ext ∧ oi.ext.truncated = some false ∧
      (∀ k ∈ ["pop", "mu", "sigma"], HasKey oi.ext k) ∧ (∃ n, oi.ext.nbins = some n) ∧
      (oi.ext.range = none ∨ ∃ lo hi, oi.ext.range = some [lo, hi])
    (good → ∃ o, construct (hurdlePrims c F emb ofNum) mids oi w = (.ok o, w)) ∧
    (¬ good → construct (hurdlePrims c F emb ofNum) mids oi w = (.error .assertion, w)) := by
  intro good
  have key : (probSettingsOK oi.ext && oi.ext.truncated == some false && ["pop", "mu", "sigma"].all oi.ext.hasKey &&
      oi.ext.nbins.isSome && (match oi.ext.range with
        | none => true
        | some l => decide (l.length = 2))) = true ↔ ProbArgs oi.ext ∧ oi.ext.truncated = some false ∧
      (∀ k ∈ ["pop", "mu", "sigma"], HasKey oi.ext k) ∧ (∃ n, oi.ext.nbins = some n) ∧
      (oi.ext.range = none ∨ ∃ lo hi, oi.ext.range = some [lo, hi]) := by
    have hr : (match oi.ext.range with
        | none => true
        | some l => decide (l.length = 2)) = true ↔ oi.ext.range = none ∨ ∃ lo hi, oi.ext.range = some [lo, hi] := by
      cases oi.ext.range with
      | none => simp
      | some l => simp [List.length_eq_two]
    simp only [Bool.and_eq_true, probSettings_iff, beq_iff_eq, List.all_eq_true, hasKey_iff, Option.isSome_iff_exists, hr,
      and_assoc]
  refine construct_common _ hd w (fun h => ?_) fun h => ?_
  · simp only [hurdlePrims]
    exact ⟨if_pos (key.2 h), _, rfl⟩
  · simp only [hurdlePrims]
    exact if_neg fun hk => h (key.1 hk)

/-- both sides occur: the case of C76 is accepted; with truncation, or without `n_approx_bins`, it is not -/
example : CommonArgs (probObj (hurdleX : ProbX ℚ)) ∧ ProbArgs (hurdleX : ProbX ℚ) ∧
    (hurdleX : ProbX ℚ).truncated = some false ∧ (probObj (hurdleX : ProbX ℚ)).dir = .none ∧
    ¬ ProbArgs { (hurdleX : ProbX ℚ) with members := .other } ∧
    ¬ CommonArgs { probObj (hurdleX : ProbX ℚ) with boot := .other } := by
  refine ⟨⟨.inl rfl, .inl rfl, _, rfl⟩, ?_, rfl, rfl, ?_, ?_⟩
  · rw [← probSettings_iff]; rfl
  · rw [← probSettings_iff]; decide
  · rintro ⟨-, h, -⟩
    rcases h with h | ⟨n, h⟩ <;> cases h

theorem sampleOf_negative {workers mapAxis : Int} {draw : Nat → Nat → List Nat → Fl K} {ps : List (NDArr (Fl K))}
    {x : ProbX K} {n : Int} (hn : x.members = .val n) (hneg : n < 0) :
    sampleOf workers mapAxis draw ps x = .error .value := by
  simp only [sampleOf, hn, if_neg (not_le.2 hneg), bind, Except.bind]

/-- **C93**: a negative number of members passes the constructor, and the sampling raises `ValueError`. -/
theorem C93_members {C : Cls} {I : ArgInfo A} {P : Prims (ProbX K) (PyVal K) A}
    (hP : (C = .gaussian ∧ P = gaussPrims c F emb) ∨ (C = .gamma ∧ P = gammaPrims c F emb)) {oi o : Obj (ProbX K)}
    {w w' : World (PyVal K)} (h : construct P mids oi w = (.ok o, w')) {n : Int} (hn : oi.ext.members = .val n)
    (hneg : n < 0) (w1 : World (PyVal K)) :
    result C I P mids (.slot .probToEns) (unsaved o) w1 = .error .value ∧
      result C I P mids (.slot .spread) (unsaved o) w1 = .error .value := by
  have hs : ∃ hC : C = .gaussian ∨ C = .gamma, o.ext = oi.ext ∧ P.members oi.ext = true ∧
      ∀ seed, P.sample oi.ext seed = .error .value := by
    rcases hP with ⟨rfl, rfl⟩ | ⟨rfl, rfl⟩
    · refine ⟨.inl rfl, (construct_prob (shared_gauss c F emb) h).1, by simp only [gaussPrims, probPrims, hn], fun seed => ?_⟩
      obtain ⟨-, hk⟩ := C77_partial.1 h
      obtain ⟨mu, hm⟩ := hk "mu" (by simp)
      obtain ⟨sg, hsg⟩ := hk "sigma" (by simp)
      simp only [gaussPrims, key_ok hm, key_ok hsg, sampleOf_negative hn hneg, bind, Except.bind]
    · refine ⟨.inr rfl, (construct_prob (shared_gamma c F emb) h).1, by simp only [gammaPrims, probPrims, hn], fun seed => ?_⟩
      obtain ⟨-, hk⟩ := C77_partial.2 h
      obtain ⟨mu, hm⟩ := hk "unshifted_mu" (by simp)
      obtain ⟨sg, hsg⟩ := hk "sigma" (by simp)
      obtain ⟨sh, hsh⟩ := hk "shift" (by simp)
      simp only [gammaPrims, key_ok hm, key_ok hsg, key_ok hsh, sampleOf_negative hn hneg, bind, Except.bind]
  obtain ⟨hC, he, hm, hsm⟩ := hs
  constructor
  · rw [result_eq]
    rcases hC with rfl | rfl <;>
    · simp only [metricProg, slotName, Prog.callName, slotBody, ensBody, he, hm, if_true, hsm]
      simp [Prog.run, load_none, Except.map]
  · rw [result_eq]
    obtain ⟨nm, hnm⟩ : ∃ nm, toName I (some "spread".toList) [] = .ok nm := ⟨_, rfl⟩
    rcases hC with rfl | rfl <;>
    · simp only [metricProg, slotName, hnm, Prog.callName, slotBody, ensBody, he, hm, if_true, hsm]
      simp [Prog.run, load_none, Except.map]

/-- a verifier with -3 members is constructed -/
example : ∃ o w, construct (gaussPrims caseCfg fnsQ embRat) noMids (probObj { gaussX false with members := .val (-3) })
    world0 = (.ok o, w) := ⟨_, _, rfl⟩

end Props
