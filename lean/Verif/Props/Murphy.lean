import Verif.Lemmas.Murphy
import Verif.Props.EndToEndCurves
import Verif.Props.Exchange
import Verif.Props.EnsCrps

/-!
# Correlation, bias and squared error: C107
-/

set_option linter.unusedSectionVars false

namespace Props
open Np NDArr Spec Model Lemmas

variable {K : Type} [Field K] [LinearOrder K] [IsStrictOrderedRing K] [FloorSemiring K]
variable {X A : Type} {C : Cls} {I : ArgInfo A} {P : Prims X (PyVal K) A} {mids : FS (PyVal K) → Path → List (FS (PyVal K))}
variable {c : Cfg K} {emb : A → Arg K} {obs : X → NDArr (Fl K)}

/-- `v` is the variance of the values `g` takes on `L` -/
def IsVar {α : Type} (g : α → K) (L : List α) (v : K) : Prop :=
  v = avg (L.map fun i => (g i - avg (L.map g)) ^ 2)

theorem nums_ofNat (n : Nat) (B : List Nat) : nums n (some (B.map Int.ofNat)) = B := by
  simp only [nums, List.map_map]
  conv_rhs => rw [← List.map_id B]
  exact List.map_congr_left fun y hy => by
    simp only [Function.comp, axisNum, Int.ofNat_eq_natCast, id]
    rw [if_neg (by omega)]
    simp

theorem optOK_ofNat {n : Nat} {B : List Nat} (hd : B.Nodup) (h : ∀ y ∈ B, y < n) : OptOK n (some (B.map Int.ofNat)) := by
  refine ⟨fun z hz => ?_, ?_⟩
  · obtain ⟨y, hy, rfl⟩ := List.mem_map.1 hz
    have := h y hy
    simp only [AxisOK, Int.ofNat_eq_natCast]
    omega
  · have := nums_ofNat n B
    simp only [nums] at this
    rw [this]
    exact hd

theorem IsVar.eq_codev {α : Type} (g : α → K) (L : List α) :
    avg (L.map fun i => (g i - avg (L.map g)) ^ 2) = codev g g L / (L.length : K) := by
  rw [codev]
  conv_lhs => rw [avg, List.length_map]
  congr 2
  exact List.map_congr_left fun i _ => by ring

theorem codev_map {α β : Type} (u : α → β) (g h : β → K) (L : List α) :
    codev g h (L.map u) = codev (g ∘ u) (h ∘ u) L := by
  unfold codev
  rw [List.map_map, List.map_map, List.map_map]
  rfl

/-- **C107**. For complete forecasts and observations and a chosen `avg_axis`, without bootstrapping, let at a kept position
`e`, `q` and `ρ` be the values of `error()`, `sq_error()` and `corr()`, and `sf`, `so` the standard deviations of the
(deterministic) forecasts and observations averaged there. Then `ρ` is NaN exactly if the forecasts or the observations are
constant there; otherwise it is a number with `q = e² + sf² + so² - 2 ρ sf so`, hence `q ≥ e² + (sf - so)²` with equality
exactly if `ρ = 1`; and `ρ` is `1` (`-1`) exactly if the forecasts are a rising (falling) linear function of the
observations. -/
theorem C107_murphy (hP : Shared c obs emb P) (hs : IsSqrt c.sqrt) {o : Obj X} {B : List Nat} (hb : o.boot = .none)
    (hax : axisArg o.avg = .ok (some (B.map Int.ofNat))) {w0 : World (PyVal K)} {f : NDArr (Fl K)}
    (hf : result C I P mids (.slot .fDeterm) (unsaved o) w0 = .ok (some (.num f)))
    (hsh : f.shape = (obs o.ext).shape) (hB : SliceAxes f.shape B) (h0 : 0 ∉ f.shape) {x y : List Nat → K}
    (hx : ∀ i, InB f.shape i → f.get i = some (x i)) (hy : ∀ i, InB f.shape i → (obs o.ext).get i = some (y i))
    (w : World (PyVal K)) :
    ∃ e q ρ, result C I P mids (.slot .error) (unsaved o) w = .ok (some (.num e)) ∧
      result C I P mids (.slot .sqError) (unsaved o) w = .ok (some (.num q)) ∧
      result C I P mids (.slot .corr) (unsaved o) w = .ok (some (.num ρ)) ∧
      ∀ k, InB (dropAxes B f.shape) k →
        let L := fiberIdx f.shape B k
        ∃ ek qk, e.get k = some ek ∧ q.get k = some qk ∧
          (ρ.get k = none ↔ (∀ i ∈ L, ∀ j ∈ L, x i = x j) ∨ ∀ i ∈ L, ∀ j ∈ L, y i = y j) ∧
          ∀ r vf vo, ρ.get k = some r → IsVar x L vf → IsVar y L vo →
            0 < c.sqrt vf ∧ 0 < c.sqrt vo ∧ -1 ≤ r ∧ r ≤ 1 ∧
            qk = ek ^ 2 + vf + vo - 2 * r * c.sqrt vf * c.sqrt vo ∧
            ek ^ 2 + (c.sqrt vf - c.sqrt vo) ^ 2 ≤ qk ∧ (qk = ek ^ 2 + (c.sqrt vf - c.sqrt vo) ^ 2 ↔ r = 1) ∧
            (r = 1 ↔ ∃ a b, 0 < a ∧ ∀ i ∈ L, x i = a * y i + b) ∧
            (r = -1 ↔ ∃ a b, a < 0 ∧ ∀ i ∈ L, x i = a * y i + b) := by
  obtain ⟨ρ, p1, -, p2⟩ := C75_corr (mids := mids) hP hs hb hax hf hsh hB w
  have hok : OptOK f.shape.length (some (B.map Int.ofNat)) := optOK_ofNat hB.nodup hB.lt
  obtain ⟨e, a', q, r', e1, -, e2, -, ⟨e3, -, -, -⟩, e4⟩ := C75_errors hP hb hax hf hsh hok w
  have hn : nums f.shape.length (some (B.map Int.ofNat)) = B := nums_ofNat _ _
  rw [hn] at e3 e4
  refine ⟨e, q, ρ, e1, e2, p1, fun k hk => ?_⟩
  intro L
  obtain ⟨g1, -, g2, -⟩ := e4 k (e3 ▸ hk)
  have g3 := p2 k hk
  have hL : L ≠ [] := fiberIdx_ne h0 hk
  have hin : ∀ i ∈ L, InB f.shape i := fun i hi => (mem_fiberIdx.1 hi).1
  simp only [pairsAt, List.map_map] at g1 g2
  have he := isAvg_some' hL (h := fun i => x i - y i) (fun i hi => by
    simp only [Function.comp, hx i (hin i hi), hy i (hin i hi), both]) g1
  have hq := isAvg_some' hL (h := fun i => (x i - y i) ^ 2) (fun i hi => by
    simp only [Function.comp, hx i (hin i hi), hy i (hin i hi), both]) g2
  set Q : List (K × K) := L.map fun i => (x i, y i) with hQ
  have hQn : Q ≠ [] := by simpa [hQ] using hL
  have hpair : pairsAt f (obs o.ext) B k = Q.map fun p => (some p.1, some p.2) := by
    rw [hQ, List.map_map]
    exact List.map_congr_left fun i hi => by simp only [Function.comp, hx i (hin i hi), hy i (hin i hi)]
  have hcomp : complete (pairsAt f (obs o.ext) B k) = Q := by
    rw [hpair, complete, List.filterMap_map]
    exact List.filterMap_some
  have hnon : ¬∃ p ∈ pairsAt f (obs o.ext) B k, p.1 = none ∨ p.2 = none := by
    rw [hpair]
    rintro ⟨p, hp, h⟩
    obtain ⟨p', -, rfl⟩ := List.mem_map.1 hp
    simp at h
  have hcx : codev Prod.fst Prod.fst Q = 0 ↔ ∀ i ∈ L, ∀ j ∈ L, x i = x j := by
    rw [codev_zero_iff, hQ]; simp
  have hcy : codev Prod.snd Prod.snd Q = 0 ↔ ∀ i ∈ L, ∀ j ∈ L, y i = y j := by
    rw [codev_zero_iff, hQ]; simp
  have hvx : ∀ v, IsVar x L v → v = codev Prod.fst Prod.fst Q / (Q.length : K) := by
    intro v hv
    rw [hv, IsVar.eq_codev x, hQ, List.length_map, codev_map]
    rfl
  have hvy : ∀ v, IsVar y L v → v = codev Prod.snd Prod.snd Q / (Q.length : K) := by
    intro v hv
    rw [hv, IsVar.eq_codev y, hQ, List.length_map, codev_map]
    rfl
  have hN : (0 : K) < Q.length := by exact_mod_cast List.length_pos_of_ne_nil hQn
  refine ⟨_, _, he, hq, ?_, fun r vf vo hr hvf hvo => ?_⟩
  · unfold IsCorr at g3
    rw [hcomp] at g3
    split at g3
    · rename_i hc
      rw [g3]
      simp only [true_iff]
      rcases hc with ⟨-, h⟩ | h | h
      · exact absurd h hnon
      · exact .inl (hcx.1 h)
      · exact .inr (hcy.1 h)
    · rename_i hc
      obtain ⟨r, hr, -⟩ := g3
      rw [hr]
      simp only [reduceCtorEq, false_iff]
      rintro (h | h)
      · exact hc (.inr (.inl (hcx.2 h)))
      · exact hc (.inr (.inr (hcy.2 h)))
  · unfold IsCorr at g3
    rw [hcomp, hr] at g3
    split at g3
    · cases g3
    rename_i hc
    obtain ⟨r', hr', hp⟩ := g3
    cases hr'
    have n1 : codev Prod.fst Prod.fst Q ≠ 0 := fun h => hc (.inr (.inl h))
    have n2 : codev Prod.snd Prod.snd Q ≠ 0 := fun h => hc (.inr (.inr h))
    have q1 := lt_of_le_of_ne (codev_self_nonneg Prod.fst Q) (Ne.symm n1)
    have q2 := lt_of_le_of_ne (codev_self_nonneg Prod.snd Q) (Ne.symm n2)
    have hcov := isPearson_cov hs hQn hp
    have hm := murphy hQn
    rw [← hvx vf hvf, ← hvy vo hvo] at hcov hm
    rw [← hcov] at hm
    have v1 : 0 < vf := by rw [hvx vf hvf]; exact div_pos q1 hN
    have v2 : 0 < vo := by rw [hvy vo hvo]; exact div_pos q2 hN
    have root : ∀ v, 0 < v → 0 < c.sqrt v ∧ c.sqrt v * c.sqrt v = v := by
      intro v hv
      refine ⟨lt_of_le_of_ne (hs.nonneg v hv.le) fun h => ?_, hs.sq v hv.le⟩
      have := hs.sq v hv.le
      rw [← h] at this
      simp at this
      exact hv.ne this
    obtain ⟨s1, s2⟩ := root vf v1
    obtain ⟨t1, t2⟩ := root vo v2
    obtain ⟨b1, b2⟩ := isPearson_bound hp n1 n2
    have eq1 : avg (Q.map fun p => (p.1 - p.2) ^ 2) = avg (L.map fun i => (x i - y i) ^ 2) := by
      rw [hQ, List.map_map]; rfl
    have eq2 : avg (Q.map fun p => p.1 - p.2) = avg (L.map fun i => x i - y i) := by
      rw [hQ, List.map_map]; rfl
    rw [eq1, eq2] at hm
    have hm' : avg (L.map fun i => (x i - y i) ^ 2) = avg (L.map fun i => x i - y i) ^ 2 +
        (c.sqrt vf - c.sqrt vo) ^ 2 + 2 * (1 - r) * (c.sqrt vf * c.sqrt vo) := by
      rw [hm]; linear_combination -s2 - t2
    have st := mul_pos s1 t1
    obtain ⟨l1, l2⟩ := isPearson_one hQn hp n1 n2
    have hall : ∀ a b : K, (∀ p ∈ Q, p.1 = a * p.2 + b) ↔ ∀ i ∈ L, x i = a * y i + b := by
      intro a b; rw [hQ]; simp
    simp only [hall] at l1 l2
    refine ⟨s1, t1, b1, b2, by rw [hm]; ring, ?_, ⟨fun h => ?_, fun h => ?_⟩, l1, l2⟩
    · rw [hm']
      have := mul_nonneg (sub_nonneg.2 b2) st.le
      linarith
    · rw [hm', add_eq_left, mul_eq_zero, or_iff_left st.ne'] at h
      linarith
    · rw [hm', h]; ring

/-! ### a case -/

/-- forecasts `[[3, 5, 9], [1, 1, 1]]` and observations `[[1, 2, 4], [0, 1, 5]]` -/
noncomputable def lineR : Obj (DetX ℝ) := ⟨.int 1, .none, .none, some true,
  ⟨⟨[2, 3], [some 3, some 5, some 9, some 1, some 1, some 1], rfl⟩, ⟨[2, 3], [some 1, some 2, some 4, some 0, some 1, some 5], rfl⟩⟩⟩

theorem isSqrt_real : IsSqrt Real.sqrt := ⟨fun _ _ => Real.sqrt_nonneg _, fun _ h => Real.mul_self_sqrt h⟩

/-- The first forecasts are `2 o + 1`: their correlation is 1 and their squared error is `e² + (sf - so)²`. The second are
constant: their correlation is NaN. -/
example : ∃ o w', construct (detPrims cfgR embReal) noMids lineR world0 = (.ok o, w') ∧
    ∃ ρ, result .determ realInfo (detPrims cfgR embReal) noMids (.slot .corr) (unsaved o) world0 = .ok (some (.num ρ)) ∧
      ρ.get [0] = some 1 ∧ ρ.get [1] = none := by
  have h : ∃ o w', construct (detPrims cfgR embReal) noMids lineR world0 = (.ok o, w') ∧ o.ext = lineR.ext ∧
      o.boot = .none ∧ axisArg o.avg = .ok (some ([1].map Int.ofNat)) := ⟨_, _, rfl, rfl, rfl, rfl⟩
  obtain ⟨o, w', h, hx, hb, ha⟩ := h
  have hf : result .determ realInfo (detPrims cfgR embReal) noMids (.slot .fDeterm) (unsaved o) world0 =
      .ok (some (.num o.ext.f)) := rfl
  have hs : o.ext.f.shape = [2, 3] := by rw [hx]; rfl
  have hvf : ∀ i ∈ allIdx [2, 3], lineR.ext.f.get i = some ((lineR.ext.f.get i).getD 0) := by
    simp only [lineR]
    intro i hi
    fin_cases hi <;> rfl
  have hvo : ∀ i ∈ allIdx [2, 3], lineR.ext.o.get i = some ((lineR.ext.o.get i).getD 0) := by
    simp only [lineR]
    intro i hi
    fin_cases hi <;> rfl
  obtain ⟨e, q, ρ, -, -, p1, p2⟩ := C107_murphy (mids := noMids) (I := realInfo) (shared_det cfgR embReal) isSqrt_real hb ha hf
    (by rw [hx]; rfl)
    (hs ▸ ⟨by decide, by decide, by decide, by decide⟩) (hs ▸ by decide)
    (x := fun i => (lineR.ext.f.get i).getD 0) (y := fun i => (lineR.ext.o.get i).getD 0)
    (fun i hi => by rw [hx]; exact hvf i (mem_allIdx.2 (hs ▸ hi)))
    (fun i hi => by
      have := hvo i (mem_allIdx.2 (hs ▸ hi))
      rw [← hx] at this ⊢
      exact this) world0
  rw [hs] at p2
  refine ⟨o, w', h, ρ, p1, ?_, ?_⟩
  · obtain ⟨ek, qk, -, -, c1, c2⟩ := p2 [0] (by decide)
    have hfib : fiberIdx [2, 3] [1] [0] = [[0, 0], [0, 1], [0, 2]] := by decide
    rw [hfib] at c1 c2
    rcases hr : ρ.get [0] with _ | r
    · exfalso
      rcases c1.1 hr with h | h
      · have := h [0, 0] (by simp) [0, 1] (by simp)
        have : (3 : ℝ) = 5 := this
        norm_num at this
      · have := h [0, 0] (by simp) [0, 1] (by simp)
        have : (1 : ℝ) = 2 := this
        norm_num at this
    · obtain ⟨-, -, -, -, -, -, -, c3, -⟩ := c2 r _ _ hr rfl rfl
      rw [c3.2 ⟨2, 1, by norm_num, ?_⟩]
      intro i hi
      fin_cases hi
      · show (3 : ℝ) = 2 * 1 + 1; norm_num
      · show (5 : ℝ) = 2 * 2 + 1; norm_num
      · show (9 : ℝ) = 2 * 4 + 1; norm_num
  · obtain ⟨ek, qk, -, -, c1, -⟩ := p2 [1] (by decide)
    have hfib : fiberIdx [2, 3] [1] [1] = [[1, 0], [1, 1], [1, 2]] := by decide
    rw [hfib] at c1
    refine c1.2 (.inl fun i hi j hj => ?_)
    fin_cases hi <;> fin_cases hj <;> rfl

end Props
