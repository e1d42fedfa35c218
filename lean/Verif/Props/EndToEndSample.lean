import Verif.Props.EndToEndProb
import Verif.Props.Rank

/-!
# Sampled ensembles of the probabilistic verifiers, from the constructor on: C76
-/

set_option linter.unusedSectionVars false

namespace Props
open Np NDArr Spec Model Lemmas

variable {K : Type} [Field K] [LinearOrder K] [IsStrictOrderedRing K] [FloorSemiring K]
variable {A : Type} {I : ArgInfo A} {mids : FS (PyVal K) → Path → List (FS (PyVal K))} {c : Cfg K} {emb : A → Arg K}
variable {F : ProbFns K} {C : Cls} {P : Prims (ProbX K) (PyVal K) A} {cdf : ProbX K → Thr K → Except Err (NDArr (Fl K))}

/-- `clip_member_to_zero` after validation -/
def clipOf : PySet K → Option K
  | .val c => some c
  | _ => none

/-- a class that samples from `ps` -/
structure Samples (c : Cfg K) (F : ProbFns K) (P : Prims (ProbX K) (PyVal K) A) (x : ProbX K) (ps : List (NDArr (Fl K))) :
    Prop where
  ne : ps ≠ []
  shape : ∀ p ∈ ps, p.shape = x.o.shape
  sample : ∀ seed, P.sample x seed =
    (sampleOf c.workers c.mapAxis (F.rvs seed x.trunc ps) ps x).map PyVal.num
  settings : probSettingsOK x = true

theorem samples_gauss {oi o : Obj (ProbX K)} {w w' : World (PyVal K)}
    (h : construct (gaussPrims c F emb) mids oi w = (.ok o, w')) :
    ∃ mu sigma, HasPar oi.ext "mu" mu ∧ HasPar oi.ext "sigma" sigma ∧
      Samples c F (gaussPrims c F emb) oi.ext [mu, sigma] := by
  obtain ⟨mu, sigma, hm, hs⟩ := gauss_ready h
  refine ⟨mu, sigma, hm, hs, by simp, ?_, fun seed => ?_, ?_⟩
  · intro p hp
    simp only [List.mem_cons, List.not_mem_nil, or_false] at hp
    rcases hp with rfl | rfl
    · exact hm.2
    · exact hs.2
  · simp only [gaussPrims, key_ok hm, key_ok hs, bind, Except.bind]
    cases sampleOf c.workers c.mapAxis (F.rvs seed oi.ext.trunc [mu, sigma]) [mu, sigma] oi.ext <;> rfl
  · obtain ⟨-, hc, -⟩ := construct_prob (shared_gauss c F emb) h
    simp only [gaussPrims] at hc
    split at hc
    · rename_i hd
      simp only [Bool.and_eq_true] at hd
      exact hd.1
    · cases hc

theorem samples_gamma {oi o : Obj (ProbX K)} {w w' : World (PyVal K)}
    (h : construct (gammaPrims c F emb) mids oi w = (.ok o, w')) :
    ∃ umu sigma shift, HasPar oi.ext "unshifted_mu" umu ∧ HasPar oi.ext "sigma" sigma ∧ HasPar oi.ext "shift" shift ∧
      Samples c F (gammaPrims c F emb) oi.ext [umu, sigma, shift] := by
  obtain ⟨-, sigma, shift, umu, -, hs, hd, hm⟩ := gamma_ready h
  refine ⟨umu, sigma, shift, hm, hs, hd, by simp, ?_, fun seed => ?_, ?_⟩
  · intro p hp
    simp only [List.mem_cons, List.not_mem_nil, or_false] at hp
    rcases hp with rfl | rfl | rfl
    · exact hm.2
    · exact hs.2
    · exact hd.2
  · simp only [gammaPrims, key_ok hm, key_ok hs, key_ok hd, bind, Except.bind]
    cases sampleOf c.workers c.mapAxis (F.rvs seed oi.ext.trunc [umu, sigma, shift]) [umu, sigma, shift] oi.ext <;> rfl
  · obtain ⟨-, hc, -⟩ := construct_prob (shared_gamma c F emb) h
    simp only [gammaPrims] at hc
    split at hc
    · rename_i hd
      simp only [Bool.and_eq_true] at hd
      exact hd.1
    · cases hc

/-- the body of `prob_to_ens` draws the members -/
theorem ens_runs (hP : SharedProb c F emb cdf P) (hC : C = .gaussian ∨ C = .gamma) {x : ProbX K}
    {ps : List (NDArr (Fl K))} (hS : Samples c F P x ps) {n : Nat} (hn : x.members = .val (n : Int)) {ax : Int}
    (hmv : x.moveAxis = some ax) (hax : AxisOK (x.o.shape.length + 1) ax) (hpool : PoolRuns c.workers c.mapAxis x.o.shape)
    (w : World (PyVal K)) :
    ∃ ens, (ensBody C P x).run none w = (.ok (.num ens), { w with pos := w.pos + 1 }) ∧
      probToEns c.workers c.mapAxis (F.rvs (w.seed w.pos) x.trunc ps) ps (some n) ax (clipOf x.clip) = .ok ens ∧
      posShape ens.shape ax = x.o.shape ∧ ens.shape.getD (axisNum ens.shape.length ax) 0 = n ∧
      ens.shape.length = x.o.shape.length + 1 ∧
      ∀ k, InB x.o.shape k → membersAt ens ax k = (List.range n).map fun m =>
        clipMember (clipOf x.clip) (drawAt c.workers c.mapAxis (F.rvs (w.seed w.pos) x.trunc ps) x.o.shape m k) := by
  obtain ⟨ens, e1, e2, e3, e4, e5⟩ := C42_layout (F.rvs (w.seed w.pos) x.trunc ps) hS.ne hS.shape n hax hpool
    (clipOf x.clip)
  refine ⟨ens, ?_, e1, e2, e3, e4, e5⟩
  have hset := hS.settings
  simp only [probSettingsOK, Bool.and_eq_true] at hset
  have hcl : x.clip ≠ .other := by
    intro h
    rw [h] at hset
    exact Bool.noConfusion hset.1.2
  have hmem : P.members x = true := by
    rw [hP.members]
    simp only [probPrims, hn]
  have hsm : P.sample x (w.seed w.pos) = .ok (.num ens) := by
    rw [hS.sample]
    simp only [sampleOf, hn, hmv, Int.natCast_nonneg, if_true, Int.toNat_natCast, bind, Except.bind, pure, Except.pure]
    cases hc : x.clip with
    | none => rw [hc] at e1; simp only [clipOf] at e1; simp only [e1]; rfl
    | val v => rw [hc] at e1; simp only [clipOf] at e1; simp only [e1]; rfl
    | other => exact absurd hc hcl
  rcases hC with rfl | rfl <;> simp only [ensBody, hmem, if_true, Prog.run, hsm]

/-- **C76**, sampling: `prob_to_ens()` gives `n_sample_members` members per position, the member axis at
`move_sampled_ens_axis`; the members of a position are draws for this position, those below the clipping limit replaced
by zero. -/
theorem C76_prob_to_ens (hP : SharedProb c F emb cdf P) (hC : C = .gaussian ∨ C = .gamma)
    {oi o : Obj (ProbX K)} {w w' : World (PyVal K)} (h : construct P mids oi w = (.ok o, w'))
    {ps : List (NDArr (Fl K))} (hS : Samples c F P oi.ext ps) {n : Nat} (hn : oi.ext.members = .val (n : Int)) {ax : Int}
    (hmv : oi.ext.moveAxis = some ax) (hax : AxisOK (oi.ext.o.shape.length + 1) ax)
    (hpool : PoolRuns c.workers c.mapAxis oi.ext.o.shape) (w1 : World (PyVal K)) :
    ∃ ens, result C I P mids (.slot .probToEns) (unsaved o) w1 = .ok (some (.num ens)) ∧
      posShape ens.shape ax = oi.ext.o.shape ∧ ens.shape.getD (axisNum ens.shape.length ax) 0 = n ∧
      ∀ k, InB oi.ext.o.shape k → membersAt ens ax k = (List.range n).map fun m =>
        clipMember (clipOf oi.ext.clip)
          (drawAt c.workers c.mapAxis (F.rvs (w1.seed w1.pos) oi.ext.trunc ps) oi.ext.o.shape m k) := by
  obtain ⟨e, -, -, -⟩ := construct_prob hP h
  obtain ⟨ens, e1, -, e2, e3, -, e4⟩ := ens_runs hP hC hS hn hmv hax hpool w1
  refine ⟨ens, ?_, e2, e3, e4⟩
  rw [result_eq]
  simp only [metricProg, slotName, Prog.callName]
  have hb : (slotBody C I P o.ext o.avg o.boot .probToEns).run none w1 =
      (.ok (.num ens), { w1 with pos := w1.pos + 1 }) := by
    simp only [slotBody]
    rw [e]
    exact e1
  rcases hC with rfl | rfl <;>
  · rw [if_neg (by simp)]
    rw [run_call_none _ _ _ _ hb]
    rfl

/-- **C76**, spread: with the member axis last, `spread()` is the average over the requested axes of the difference
between the largest and the smallest of freshly drawn members. -/
theorem C76_spread (hP : SharedProb c F emb cdf P) (hC : C = .gaussian ∨ C = .gamma)
    {oi o : Obj (ProbX K)} {w w' : World (PyVal K)} (h : construct P mids oi w = (.ok o, w'))
    {ps : List (NDArr (Fl K))} (hS : Samples c F P oi.ext ps) {n : Nat} (hn : oi.ext.members = .val (n : Int)) (h0 : n ≠ 0)
    (hmv : oi.ext.moveAxis = some (-1)) (hpool : PoolRuns c.workers c.mapAxis oi.ext.o.shape)
    (w1 : World (PyVal K)) (hfin : ∀ k, InB oi.ext.o.shape k → ∀ m < n,
      drawAt c.workers c.mapAxis (F.rvs (w1.seed w1.pos) oi.ext.trunc ps) oi.ext.o.shape m k ≠ none)
    (hb : oi.boot = .none) (hok : OptOK oi.ext.o.shape.length (axesOf oi.avg)) :
    ∃ (spr r : NDArr (Fl K)), result C I P mids (.slot .spread) (unsaved o) w1 = .ok (some (.num r)) ∧ spr.shape = oi.ext.o.shape ∧
      (∀ k, InB oi.ext.o.shape k →
        let M := (List.range n).map fun m => clipMember (clipOf oi.ext.clip)
          (drawAt c.workers c.mapAxis (F.rvs (w1.seed w1.pos) oi.ext.trunc ps) oi.ext.o.shape m k)
        ∃ hi lo, spr.get k = some (hi - lo) ∧ some hi ∈ M ∧ some lo ∈ M ∧ ∀ x, some x ∈ M → lo ≤ x ∧ x ≤ hi) ∧
      r.shape = dropAxes (nums oi.ext.o.shape.length (axesOf oi.avg)) oi.ext.o.shape ∧
      ∀ k, InB r.shape k →
        IsAvg c.skipNan ((fiberIdx oi.ext.o.shape (nums oi.ext.o.shape.length (axesOf oi.avg)) k).map spr.get)
          (r.get k) := by
  obtain ⟨e, -, h2, h3⟩ := construct_prob hP h
  have hax : AxisOK (oi.ext.o.shape.length + 1) (-1) := by constructor <;> omega
  obtain ⟨ens, e1, e2, -, -, -, e5⟩ := ens_runs hP hC hS hn hmv hax hpool w1
  obtain ⟨ens', spr, s1, s2, s3, s4⟩ := C42_spread_partial c.skipNan (F.rvs (w1.seed w1.pos) oi.ext.trunc ps) hS.ne
    hS.shape n h0 hpool (clipOf oi.ext.clip) (-1) (.inl rfl) hfin
  rw [e2] at s1
  obtain rfl := Except.ok.inj s1
  obtain ⟨nm, hnm⟩ := fixed_ok I (some "spread".toList)
  have hsp : P.spreadOf o.ext (.num ens) = .ok (.num spr) := by
    rw [hP.spreadOf]
    simp only [probPrims, PyVal.asNum, bind, Except.bind, s2]
    rfl
  have hbody : (slotBody C I P o.ext o.avg o.boot .spread).run none w1 =
      (.ok (.num spr), { w1 with pos := w1.pos + 1 }) := by
    rcases hC with rfl | rfl <;>
    · simp only [slotBody, slotName, Prog.callName]
      rw [run_call_none _ _ _ _ (by rw [e]; exact e1)]
      simp only [Prog.run, hsp]
  obtain ⟨r, r1, r2, r3⟩ := C62_average_partial c.skipNan (axesOf oi.avg) c.reps c.conf (c.rng 0 0) spr
    (by rw [s3]; exact hok)
  rw [s3] at r2 r3
  refine ⟨spr, r, ?_, s3, fun k hk => ?_, r2, fun k hk => ?_⟩
  · rw [result_slot (s := .spread) rfl hnm hbody]
    have hpost : slotPost P o.avg o.boot .spread = bootOrAvgP P o.avg o.boot .ok := rfl
    rw [hpost, avg_run hP.base (h2.trans hb) h3, r1]
    rfl
  · rw [← e5 k hk]
    exact s4 k hk
  · rw [r2] at hk
    have := r3 k hk
    rw [fiber, s3] at this
    exact this

/-- **C76**, ranks: with the member axis last and no missing values, `rank_hist()` gives at every position a possible
rank of the observation among freshly drawn members. -/
theorem C76_rank_hist (hP : SharedProb c F emb cdf P) (hC : C = .gaussian ∨ C = .gamma)
    {oi o : Obj (ProbX K)} {w w' : World (PyVal K)} (h : construct P mids oi w = (.ok o, w'))
    {ps : List (NDArr (Fl K))} (hS : Samples c F P oi.ext ps) {n : Nat} (hn : oi.ext.members = .val (n : Int))
    (hmv : oi.ext.moveAxis = some (-1)) (hpool : PoolRuns c.workers c.mapAxis oi.ext.o.shape)
    (hmap : MapOK c.workers c.mapAxis oi.ext.o.shape) (hne : oi.ext.o.shape ≠ []) (hskip : c.skipNan = false)
    (w1 : World (PyVal K)) (hfin : ∀ k, InB oi.ext.o.shape k → ∀ m < n,
      drawAt c.workers c.mapAxis (F.rvs (w1.seed w1.pos) oi.ext.trunc ps) oi.ext.o.shape m k ≠ none)
    (hon : none ∉ oi.ext.o.data) :
    ∃ r, result C I P mids (.slot .rankHist) (unsaved o) w1 = .ok (some (.ranks r)) ∧ r.shape = oi.ext.o.shape ∧
      ∀ k, InB oi.ext.o.shape k →
        let M := (List.range n).map fun m => clipMember (clipOf oi.ext.clip)
          (drawAt c.workers c.mapAxis (F.rvs (w1.seed w1.pos) oi.ext.trunc ps) oi.ext.o.shape m k)
        ∃ j, r.get k = some j ∧ PossibleRank M (oi.ext.o.get k) j ∧ 1 ≤ j ∧ j ≤ n + 1 := by
  obtain ⟨e, -, -, -⟩ := construct_prob hP h
  have hax : AxisOK (oi.ext.o.shape.length + 1) (-1) := by constructor <;> omega
  obtain ⟨ens, e1, e2, e3, e4, e5, e6⟩ := ens_runs hP hC hS hn hmv hax hpool w1
  have hax' : AxisOK ens.shape.length (-1) := by rw [e5]; exact hax
  have hens : none ∉ ens.data := by
    intro hmem
    rw [data_eq] at hmem
    obtain ⟨i, hi, hg⟩ := List.mem_map.1 hmem
    rw [mem_allIdx] at hi
    have hlt := axisNum_lt hax'
    have hk := inB_dropAxes [axisNum ens.shape.length (-1)] hi
    rw [dropAxes_single hlt, show ens.shape.eraseIdx _ = oi.ext.o.shape from e3] at hk
    have hin : none ∈ membersAt ens (-1) (dropAxes [axisNum ens.shape.length (-1)] i) :=
      List.mem_map.2 ⟨i, mem_fiberIdx.2 ⟨hi, rfl⟩, hg⟩
    rw [e6 _ hk] at hin
    obtain ⟨m, hm, hd⟩ := List.mem_map.1 hin
    have := hfin _ hk m (List.mem_range.1 hm)
    revert hd this
    cases drawAt c.workers c.mapAxis (F.rvs (w1.seed w1.pos) oi.ext.trunc ps) oi.ext.o.shape m
      (dropAxes [axisNum ens.shape.length (-1)] i) with
    | none => intro _ h; exact absurd rfl h
    | some v =>
      cases clipOf oi.ext.clip with
      | none => intro hd; cases hd
      | some q =>
        intro hd
        simp only [clipMember] at hd
        split at hd <;> cases hd
  obtain ⟨r, r1, r2, r3⟩ := C14_possible_rank c.npFloat c.workers c.mapAxis (c.rng (w1.seed (w1.pos + 1)) 0) ens oi.ext.o hax'
    e3.symm hne hmap hens hon
  obtain ⟨nm, hnm⟩ := fixed_ok I (some "rank".toList)
  have hrk : P.rankOf o.ext (.num ens) (w1.seed (w1.pos + 1)) = .ok (.ranks r) := by
    rw [hP.rankOf, e]
    simp only [probPrims, PyVal.asNum, bind, Except.bind, hskip, r1]
    rfl
  have hmemb : P.members o.ext = true := by
    rw [hP.members, e]
    simp only [probPrims, hn]
  have hbody : (slotBody C I P o.ext o.avg o.boot .rankHist).run none w1 =
      (.ok (.ranks r), { w1 with pos := w1.pos + 2 }) := by
    rcases hC with rfl | rfl <;>
    · simp only [slotBody, hmemb, if_true, slotName, Prog.callName]
      rw [run_call_none _ _ _ _ (by rw [e]; exact e1)]
      simp only [Prog.run, hrk]
  refine ⟨r, ?_, r2, fun k hk => ?_⟩
  · rw [result_slot (s := .rankHist) rfl hnm hbody]
    rfl
  · obtain ⟨j, j1, j2, j3, j4, -⟩ := r3 k hk
    rw [e6 k hk] at j2
    rw [e4] at j4
    exact ⟨j, j1, j2, j3, j4⟩

end Props
