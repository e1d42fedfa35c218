import Verif.Lemmas.Coverage
import Verif.Props.EndToEndCurves
import Verif.Props.Boot

/-!
# What a bootstrap interval holds: C91, C92

`boot_vec` (utils_verify.py:239-250) summarises the replicates by their `(1-conf)/2` and `1-(1-conf)/2` quantiles, the
bootstraps of diagrams and correlations (utils_verify.py:413-416, utils_ss.py:162-163, utils_special_boot.py:99-137) by
their `1-conf` and `conf` quantiles.
-/

set_option linter.unusedSectionVars false

namespace Props
open Np NDArr Spec Model Lemmas

variable {K : Type} [Field K] [LinearOrder K] [IsStrictOrderedRing K] [FloorSemiring K]

/-- **C91**, averages: whenever the two ends of a bootstrap interval of a mean are numbers, the interval holds the
requested share of the replicates. -/
theorem C91_average {samples : List (List (Fl K))} {conf : K} {skip : Bool} {lo hi : K} {m : Fl K} (h0 : 0 ≤ conf)
    (h1 : conf ≤ 1) (h : IsBootSummary samples conf skip [some lo, m, some hi]) :
    HoldsShare conf lo hi (samples.map (meanOf skip)) := by
  have := summary_holds (a := (1 - conf) / 2) (b := 1 - (1 - conf) / 2) (by linarith) (by linarith) (by linarith) h
  have e : 1 - (1 - conf) / 2 - (1 - conf) / 2 = conf := by ring
  rwa [e] at this

/-- **C91**, `boot_arr`: at every kept position, for every draw. -/
theorem C91_boot_arr (metric : NDArr (Fl K)) (axes : List Int) (n reps : Nat) (conf : K) (skip : Bool)
    (draw : Nat → Nat → Nat → Nat) (res : NDArr (Fl K)) (hax : PlainAxes metric.shape.length axes) (h0 : 0 ≤ conf)
    (h1 : conf ≤ 1) (hres : bootArr metric (some axes) n reps conf skip draw = .ok res) {k : List Nat}
    (hk : InB (dropAxes (axes.map Int.toNat) metric.shape) k) {lo hi : K} (hlo : res.get (0 :: k) = some lo)
    (hhi : res.get (2 :: k) = some hi) :
    ∃ samples, IsResample (fiber metric (axes.map Int.toNat) k) n reps samples ∧
      HoldsShare conf lo hi (samples.map (meanOf skip)) := by
  obtain ⟨s, s1, s2⟩ := (C01_boot_population metric axes n reps conf skip draw res hax hres).2 k hk
  rw [hlo, hhi] at s2
  exact ⟨s, s1, C91_average h0 h1 s2⟩

/-- **C92 (partial)**, curves and correlations: the interval from the `1 - c` to the `c` quantile holds the share `2 c - 1` of the
replicates used.  Missing: the share `c`, which is false. -/
theorem C92_curve_partial {ms : List (Fl K)} {c : K} {lo hi : K} {m : Fl K} (h0 : 1 / 2 ≤ c) (h1 : c ≤ 1)
    (h : IsSummary ms (1 - c) c [some lo, m, some hi]) : HoldsShare (2 * c - 1) lo hi ms := by
  have := summary_holds (a := 1 - c) (b := c) (by linarith) (by linarith) h1 h
  have e : c - (1 - c) = 2 * c - 1 := by ring
  rwa [e] at this

/-- **C92 is false**: as soon as there are enough distinct replicates (41 at the default confidence 0.95; the
default number of repeats is 1000), the interval does not hold the requested share. -/
theorem C92_curve_false {ms : List (Fl K)} {c : K} {lo hi : K} {m : Fl K} (h0 : 1 / 2 ≤ c) (h1 : c ≤ 1)
    (hn : ms.Nodup) (hlen : 2 ≤ (1 - c) * ((ms.length - 1 : Nat) : K))
    (h : IsSummary ms (1 - c) c [some lo, m, some hi]) : ¬ HoldsShare c lo hi ms := by
  intro hc
  have := (C92_curve_partial h0 h1 h).2 hn
  have := hc.1
  linarith

/-- **C92 is false**: the summary the code uses for them, at its default confidence -/
theorem C92_false : ∃ (ms : List (Fl ℚ)) (t : List (Fl ℚ)) (lo m hi : ℚ), summary false ms (95 / 100) = .ok t ∧
    t = [some lo, some m, some hi] ∧ ¬ HoldsShare (95 / 100) lo hi ms := by
  obtain ⟨t, ht⟩ : ∃ t, summary false ((List.range 41).map fun n : Nat => (some (n : ℚ) : Fl ℚ)) (95 / 100) = .ok t := by
    have : (summary false ((List.range 41).map fun n : Nat => (some (n : ℚ) : Fl ℚ)) (95 / 100)).toOption =
        some [some 2, some 20, some 38] := by decide +kernel
    revert this
    cases summary false ((List.range 41).map fun n : Nat => (some (n : ℚ) : Fl ℚ)) (95 / 100) with
    | error e => intro h; cases h
    | ok t => exact fun _ => ⟨t, rfl⟩
  have ht' : t = [some 2, some 20, some 38] := by
    have : (summary false ((List.range 41).map fun n : Nat => (some (n : ℚ) : Fl ℚ)) (95 / 100)).toOption =
        some [some 2, some 20, some 38] := by decide +kernel
    rw [ht] at this
    exact Option.some.inj this
  refine ⟨_, t, 2, 20, 38, ht, ht', ?_⟩
  subst ht'
  refine C92_curve_false (by norm_num) (by norm_num) ?_ (by norm_num) (summary_spec ht)
  decide +kernel

section api

variable {A X : Type} {C : Cls} {I : ArgInfo A} {P : Prims X (PyVal K) A}
  {mids : FS (PyVal K) → Path → List (FS (PyVal K))} {c : Cfg K} {obs : X → NDArr (Fl K)} {emb : A → Arg K}

/-- **C91**, end to end: `error()`, `ab_error()` and `sq_error()` of any class, bootstrapped. -/
theorem C91_errors (hP : Shared c obs emb P) {o : Obj X} {axes : Option (List Int)} {n : Nat}
    (hb : o.boot = .int n) (hax : axisArg o.avg = .ok axes) {w0 : World (PyVal K)} {f : NDArr (Fl K)}
    (hf : result C I P mids (.slot .fDeterm) (unsaved o) w0 = .ok (some (.num f)))
    (hsh : f.shape = (obs o.ext).shape) (hok : BootAxes f.shape.length axes) (h0 : 0 ≤ c.conf) (h1 : c.conf ≤ 1)
    (w : World (PyVal K)) :
    let D := dropAxes (nums f.shape.length axes) f.shape
    let Holds : (K → K → K) → NDArr (Fl K) → Prop := fun g r => ∀ k lo hi, InB D k → r.get (0 :: k) = some lo →
      r.get (2 :: k) = some hi →
      ∃ samples, IsResample ((pairsAt f (obs o.ext) (nums f.shape.length axes) k).map (both g)) n c.reps samples ∧
        HoldsShare c.conf lo hi (samples.map (meanOf c.skipNan))
    (∀ r, result C I P mids (.slot .error) (unsaved o) w = .ok (some (.num r)) → Holds (fun x y => x - y) r) ∧
    (∀ r, result C I P mids (.slot .abError) (unsaved o) w = .ok (some (.num r)) → Holds (fun x y => |x - y|) r) ∧
    (∀ r, result C I P mids (.slot .sqError) (unsaved o) w = .ok (some (.num r)) → Holds (fun x y => (x - y) ^ 2) r) := by
  intro D Holds
  obtain ⟨g1, g2, g3, -⟩ := C75_errors_boot hP hb hax hf hsh hok w
  refine ⟨fun r hr => ?_, fun r hr => ?_, fun r hr => ?_⟩
  · obtain ⟨r', e, -, h⟩ := g1 _ hr
    cases e
    intro k lo hi hk hlo hhi
    obtain ⟨s, s1, s2⟩ := h k hk
    rw [hlo, hhi] at s2
    exact ⟨s, s1, C91_average h0 h1 s2⟩
  · obtain ⟨r', e, -, h⟩ := g2 _ hr
    cases e
    intro k lo hi hk hlo hhi
    obtain ⟨s, s1, s2⟩ := h k hk
    rw [hlo, hhi] at s2
    exact ⟨s, s1, C91_average h0 h1 s2⟩
  · obtain ⟨r', e, -, h⟩ := g3 _ hr
    cases e
    intro k lo hi hk hlo hhi
    obtain ⟨s, s1, s2⟩ := h k hk
    rw [hlo, hhi] at s2
    exact ⟨s, s1, C91_average h0 h1 s2⟩

/-- **C92 (partial)**, end to end: `corr()` of any class, bootstrapped, holds the share `2 conf - 1` of the correlations used, and
with enough distinct ones it does not hold the share `conf`. -/
theorem C92_corr_partial (hP : Shared c obs emb P) (hs : IsSqrt c.sqrt) {o : Obj X} {B : List Nat} {n : Nat}
    (hb : o.boot = .int n) (hax : axisArg o.avg = .ok (some (B.map Int.ofNat))) {w0 : World (PyVal K)}
    {f : NDArr (Fl K)} (hf : result C I P mids (.slot .fDeterm) (unsaved o) w0 = .ok (some (.num f)))
    (hsh : f.shape = (obs o.ext).shape) (hB : SliceAxes f.shape B) (h0 : 1 / 2 ≤ c.conf) (h1 : c.conf ≤ 1)
    {w : World (PyVal K)} {r : NDArr (Fl K)} (hv : result C I P mids (.slot .corr) (unsaved o) w = .ok (some (.num r)))
    {k : List Nat} (hk : InB (dropAxes B f.shape) k) {lo hi : K} (hlo : r.get (0 :: k) = some lo)
    (hhi : r.get (2 :: k) = some hi) :
    ∃ samples cs, IsResampleOf (pairsAt f (obs o.ext) B k) n c.reps samples ∧
      List.Forall₂ (fun smp r => IsCorr false smp r) samples cs ∧
      HoldsShare (2 * c.conf - 1) lo hi (used c.skipNan cs) ∧
      ((used c.skipNan cs).Nodup → 2 ≤ (1 - c.conf) * (((used c.skipNan cs).length - 1 : Nat) : K) →
        ¬ HoldsShare c.conf lo hi (used c.skipNan cs)) := by
  obtain ⟨r', e, -, h⟩ := C75_corr_boot hP hs hb hax hf hsh hB hv
  cases e
  obtain ⟨samples, cs, t, s1, s2, s3, s4⟩ := h k hk
  have hs' := s3
  obtain ⟨l', u', -, -, rfl⟩ := s3
  have e0 := s4 0 (by omega)
  have e2 := s4 2 (by omega)
  rw [hlo] at e0
  rw [hhi] at e2
  simp only [List.getD_cons_zero, List.getD_cons_succ] at e0 e2
  rw [← e0, ← e2] at hs'
  exact ⟨samples, cs, s1, s2, C92_curve_partial h0 h1 hs', fun a b => C92_curve_false h0 h1 a b hs'⟩

end api

/-- five resamples with means 0, 1, 2, 3, 4: the interval at confidence one half holds three of them -/
example : (∃ t, IsBootSummary (K := ℚ) [[some 0], [some 1], [some 2], [some 3], [some 4]] (1 / 2) false t ∧
    t = [some 1, some 2, some 3]) ∧ heldBy (1 : ℚ) 3 [some 0, some 1, some 2, some 3, some 4] = 3 :=
  ⟨⟨_, ⟨some 1, some 3, by decide +kernel, by decide +kernel, rfl⟩, by decide +kernel⟩, by decide +kernel⟩

/-- and `boot_arr` returns such intervals -/
example : PlainAxes 2 [1] ∧ ∃ res, bootArr (K := ℚ) ⟨[1, 3], [some 0, some 1, some 2], rfl⟩ (some [1]) 1 3 (1 / 2) false
      (fun _ r _ => r) = .ok res ∧
    decide (res.get [0, 0] = some (1 / 2) ∧ res.get [2, 0] = some (3 / 2)) = true :=
  ⟨by unfold PlainAxes; decide, okAnd_iff.1 (by decide +kernel)⟩

end Props
