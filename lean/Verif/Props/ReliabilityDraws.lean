import Verif.Props.Reliability

/-!
# C03: every column of a bootstrapped reliability diagram has its own draws
-/

namespace Props
open Np NDArr Model Spec Lemmas

variable {K : Type} [Field K] [LinearOrder K] [IsStrictOrderedRing K] [FloorRing K]

/-- **C03**, bootstrapped, kept axes: the curve of position `k` is the bootstrapped curve of the pairs of that position
alone, resampled with the draws of that position. -/
theorem C03_draws (f : NDArr (Fl K)) (o : NDArr Bool) (nbins : Nat)
    (axes : List Int) (n reps : Nat) (conf : K) (skip : Bool) (draw : Nat → Nat → Nat → Nat → Nat)
    (hsh : f.shape = o.shape) (hax : PlainAxes f.shape.length axes)
    (hD : dropAxes (axes.map Int.toNat) f.shape ≠ [])
    (hDp : (dropAxes (axes.map Int.toNat) f.shape).prod ≠ 0)
    {out : RelOut (List (Fl K))}
    (hout : reliabilityDiagramBoot f o nbins (some axes) n reps conf skip draw = .ok out) :
    ∃ pp pt pc tc, out = .multi (dropAxes (axes.map Int.toNat) f.shape) pp pt pc tc ∧
      ∀ k, InB (dropAxes (axes.map Int.toNat) f.shape) k →
        ∃ s, reliabilityDiagramBoot (vec ((pairsAt f o (axes.map Int.toNat) k).map Prod.fst))
            (vec ((pairsAt f o (axes.map Int.toNat) k).map Prod.snd)) nbins none n reps conf skip
            (fun _ => draw (ravel (dropAxes (axes.map Int.toNat) f.shape) k)) = .ok (.slice s) ∧
          pp[ravel (dropAxes (axes.map Int.toNat) f.shape) k]? = some s.probPred ∧
          pt[ravel (dropAxes (axes.map Int.toNat) f.shape) k]? = some s.probTrue ∧
          pc[ravel (dropAxes (axes.map Int.toNat) f.shape) k]? = some (s.predCount.map Prod.snd) := by
  have hg := goodAxes_nonneg hax.1 hax.2
  have e := axisNum_inj_nonneg (n := f.shape.length) (fun x hx => (hax.1 x hx).1)
  have := relDiag_rows f o nbins axes hsh hg (by rw [e]; exact hD) (by rw [e]; exact hDp)
    (fun bins c ids p t => relBootSlice ids p t bins n reps conf skip (draw c)) hout
  rw [e] at this
  obtain ⟨pp, pt, pc, tc, h1, h2⟩ := this
  refine ⟨pp, pt, pc, tc, h1, fun k hk => ?_⟩
  obtain ⟨r, hr, h3, h4, h5, -⟩ := h2 k hk
  refine ⟨r, ?_, h3, h4, h5⟩
  have hv := relDiag_vec (pairsAt f o (axes.map Int.toNat) k) nbins
    (fun bins _ ids p t => relBootSlice ids p t bins n reps conf skip
      (draw (ravel (dropAxes (axes.map Int.toNat) f.shape) k)))
  refine Eq.trans hv ?_
  rw [hr]
  rfl

/-- two equal columns, the first resampled to its first pair and the second to its second: the curves differ -/
example : (reliabilityDiagramBoot (K := ℚ) ⟨[2, 2], [some (1 / 4), some (1 / 4), some (1 / 2), some (1 / 2)], rfl⟩
      ⟨[2, 2], [false, false, true, true], rfl⟩ 1 (some [0]) 1 1 (9 / 10) false (fun c _ _ _ => c)).toOption.map (fun r =>
        match r with
        | .multi _ pp pt _ _ => (pp, pt)
        | .slice _ => ([], [])) =
    some ([[[some (1 / 4), some (1 / 4), some (1 / 4)]], [[some (1 / 2), some (1 / 2), some (1 / 2)]]],
      [[[some 0, some 0, some 0]], [[some 1, some 1, some 1]]]) := by decide +kernel

end Props
