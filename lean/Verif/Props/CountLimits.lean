import Verif.Lemmas.CountLimits
import Verif.Props.LongRun
import Verif.Props.RankFlat
import Verif.Props.PitUniform
import Verif.Props.Broadcast

/-!
# Intersection over union, ranks and probability integral transforms over growing archives: C134
-/

set_option linter.unusedSectionVars false

namespace Props
open Np NDArr Model Spec Lemmas MeasureTheory ProbabilityTheory Filter Topology

variable {A : Type} {I : ArgInfo A} {c : Cfg ℝ} {F : ProbFns ℝ} {emb : A → Arg ℝ}
  {mids : FS (PyVal ℝ) → Model.Path → List (FS (PyVal ℝ))}
variable {Ω : Type} [MeasurableSpace Ω] {P : Measure Ω} [IsProbabilityMeasure P] {s : List Nat} {t : Nat}
  {Y : List Nat → Ω → ℝ}
variable {X : Type} {C : Cls} {Q : Prims X (PyVal ℝ) A} {obs : X → NDArr (Fl ℝ)}

theorem measurable_beyond (isOver : Bool) (τ : ℝ) : MeasurableSet {y : ℝ | Beyond isOver τ (fun y : ℝ => y) y} := by
  cases isOver
  · exact measurableSet_Iio
  · exact measurableSet_Ioi

theorem inB_day {k : List Nat} (ht : t ≤ s.length) (hk : InB s k) {n d : Nat} (hd : d ∈ List.range (n + 1)) :
    InB (s.insertIdx t (n + 1)) (k.insertIdx t d) := by
  have : k.insertIdx t d ∈ fiberIdx (s.insertIdx t (n + 1)) [t] k := by
    rw [fiberIdx_days ht hk]
    exact List.mem_map_of_mem hd
  exact (mem_fiberIdx.1 this).1

/-- with events over the positions, days -/
theorem iou_days {k : List Nat} (ht : t ≤ s.length) (hk : InB s k) {n : Nat} {E F : List Nat → Prop} {v : Fl ℝ}
    (h : IsIou (fiberIdx (s.insertIdx t (n + 1)) [t] k) E F v) :
    IsIou (List.range (n + 1)) (fun d => E (k.insertIdx t d)) (fun d => F (k.insertIdx t d)) v := by
  classical
  rw [fiberIdx_days ht hk] at h
  have e : ∀ p : List Nat → Prop, numOf ((List.range (n + 1)).map fun d => k.insertIdx t d) p =
      numOf (List.range (n + 1)) fun d => p (k.insertIdx t d) := by
    intro p
    unfold Spec.numOf
    rw [List.filter_map, List.length_map]
    rfl
  refine ⟨fun h0 => h.1 ?_, fun h0 => ?_⟩
  · intro x hx
    obtain ⟨d, hd, rfl⟩ := List.mem_map.1 hx
    exact h0 d hd
  · obtain ⟨d, hd, h1⟩ := h0
    rw [h.2 ⟨_, List.mem_map_of_mem hd, h1⟩, e, e]

/-- **C134**, `iou_determ()` of a verifier of any class whose `f_determ()` gives the forecasts `D`. If forecast or observed
events have a chance, the number is present from some day on and settles at the probability that both happen divided by the
probability that one of them happens. If they have no chance, it stays missing. -/
theorem C134_iou_determ (hQ : Shared c obs emb Q) {o : Nat → Ω → Obj X} {w w1 : Nat → Ω → World (PyVal ℝ)}
    {f : Nat → Ω → NDArr (Fl ℝ)} {D : List Nat → Ω → ℝ}
    (hf : ∀ n ω, result C I Q mids (.slot .fDeterm) (unsaved (o n ω)) (w n ω) = .ok (some (.num (f n ω))))
    (hD : Recorded s t f D) (hy : Recorded s t (fun n ω => obs (o n ω).ext) Y) (isOver : Bool) {a : A} (ha : Printable I a)
    {τ : ℝ} (hemb : emb a = .thr (.scalar (some τ))) {l : List Int} (hax : ∀ n ω, axisArg (o n ω).avg = .ok (some l))
    (ht : t ≤ s.length) (hok : OptOK (s.length + 1) (some l)) (hn : l.map (axisNum (s.length + 1)) = [t]) :
    ∃ r : Nat → Ω → NDArr (Fl ℝ),
      (∀ n ω, result C I Q mids (.slot (.iouDeterm (overArg isOver a) (belowArg isOver a))) (unsaved (o n ω)) (w1 n ω) =
        .ok (some (.num (r n ω))) ∧ (r n ω).shape = s) ∧
      ∀ k, InB s k → SameDays P (fun d ω => (D (k.insertIdx t d) ω, Y (k.insertIdx t d) ω)) →
        let Fc := fun ω => Beyond isOver τ (D (k.insertIdx t 0)) ω
        let Ob := fun ω => Beyond isOver τ (Y (k.insertIdx t 0)) ω
        (P.real {ω | Fc ω ∨ Ob ω} ≠ 0 → ∃ S : Nat → Ω → ℝ, (∀ᵐ ω ∂P, ∃ N, ∀ n, N ≤ n → (r n ω).get k = some (S n ω)) ∧
          Settles P S (P.real {ω | Fc ω ∧ Ob ω} / P.real {ω | Fc ω ∨ Ob ω})) ∧
        (P.real {ω | Fc ω ∨ Ob ω} = 0 → ∀ᵐ ω ∂P, ∀ n, (r n ω).get k = none) := by
  have main := fun n ω => C75_iou_determ (I := I) (mids := mids) (C := C) hQ ha hemb isOver (hax n ω) (hf n ω)
    ((hD.shape n ω).trans (hy.shape n ω).symm) trivial (by rw [hD.shape n ω, days_length ht]; exact hok) (w1 n ω)
  choose r r1 r2 r3 using main
  simp only [hD.shape, days_length ht, hn, (dropAxes_insertIdx _ ht).1] at r2 r3
  refine ⟨r, fun n ω => ⟨r1 n ω, r2 n ω⟩, fun k hk rep => ?_⟩
  refine iou_limit rep (A := {p : ℝ × ℝ | Beyond isOver τ (fun y : ℝ => y) p.1})
    (B := {p : ℝ × ℝ | Beyond isOver τ (fun y : ℝ => y) p.2}) (measurable_fst (measurable_beyond isOver τ))
    (measurable_snd (measurable_beyond isOver τ)) fun n ω => ?_
  have h1 := iou_days ht hk (r3 n ω k (by rw [r2]; exact hk)).1
  refine isIou_congr (fun d hd => ?_) (fun d hd => ?_) h1
  · simp only [Event, thrAt, hD.value n ω _ (inB_day ht hk hd), LtP]
    cases isOver <;> simp [Beyond]
  · simp only [Event, thrAt, hy.value n ω _ (inB_day ht hk hd), LtP]
    cases isOver <;> simp [Beyond]

/-- **C134**, `iou_prob()` of a verifier of any class whose `cdf()` gives the probabilities `D`: the same, with the event that
the forecast probability is above (below) `q` in place of the forecast event. -/
theorem C134_iou_prob (hQ : Shared c obs emb Q) {o : Nat → Ω → Obj X} {w w1 : Nat → Ω → World (PyVal ℝ)} {a b ov be : A}
    {τ q : ℝ} (hemb : emb a = .thr (.scalar (some τ))) (hembq : emb b = .thr (.scalar (some q))) (h0 : 0 ≤ q) (h1 : q ≤ 1)
    (isOver above : Bool) (hov : I.items ov = some [overArg isOver a, overArg above b])
    (hbe : I.items be = some [belowArg isOver a, belowArg above b]) (hpo : Printable I ov) (hpb : Printable I be)
    {f : Nat → Ω → NDArr (Fl ℝ)} {D : List Nat → Ω → ℝ}
    (hf : ∀ n ω, result C I Q mids (.slot (.cdf (overArg isOver a) (belowArg isOver a))) (unsaved (o n ω)) (w n ω) =
      .ok (some (.num (f n ω))))
    (hD : Recorded s t f D) (hy : Recorded s t (fun n ω => obs (o n ω).ext) Y) {l : List Int}
    (hax : ∀ n ω, axisArg (o n ω).avg = .ok (some l))
    (ht : t ≤ s.length) (hok : OptOK (s.length + 1) (some l)) (hn : l.map (axisNum (s.length + 1)) = [t]) :
    ∃ r : Nat → Ω → NDArr (Fl ℝ),
      (∀ n ω, result C I Q mids (.slot (.iouProb (some ov) (some be))) (unsaved (o n ω)) (w1 n ω) =
        .ok (some (.num (r n ω))) ∧ (r n ω).shape = s) ∧
      ∀ k, InB s k → SameDays P (fun d ω => (D (k.insertIdx t d) ω, Y (k.insertIdx t d) ω)) →
        let Fc := fun ω => Beyond above q (D (k.insertIdx t 0)) ω
        let Ob := fun ω => Beyond isOver τ (Y (k.insertIdx t 0)) ω
        (P.real {ω | Fc ω ∨ Ob ω} ≠ 0 → ∃ S : Nat → Ω → ℝ, (∀ᵐ ω ∂P, ∃ N, ∀ n, N ≤ n → (r n ω).get k = some (S n ω)) ∧
          Settles P S (P.real {ω | Fc ω ∧ Ob ω} / P.real {ω | Fc ω ∨ Ob ω})) ∧
        (P.real {ω | Fc ω ∨ Ob ω} = 0 → ∀ᵐ ω ∂P, ∀ n, (r n ω).get k = none) := by
  have main := fun n ω => C75_iou_prob (I := I) (mids := mids) (C := C) hQ hemb hembq h0 h1 isOver above hov hbe hpo hpb
    (hax n ω) (hf n ω) trivial ((hD.shape n ω).trans (hy.shape n ω).symm)
    (by rw [hD.shape n ω, days_length ht]; exact hok) (w1 n ω)
  choose r r1 r2 r3 using main
  simp only [hD.shape, days_length ht, hn, (dropAxes_insertIdx _ ht).1] at r2 r3
  refine ⟨r, fun n ω => ⟨r1 n ω, r2 n ω⟩, fun k hk rep => ?_⟩
  refine iou_limit rep (A := {p : ℝ × ℝ | Beyond above q (fun y : ℝ => y) p.1})
    (B := {p : ℝ × ℝ | Beyond isOver τ (fun y : ℝ => y) p.2}) (measurable_fst (measurable_beyond above q))
    (measurable_snd (measurable_beyond isOver τ)) fun n ω => ?_
  have h1 := iou_days ht hk (r3 n ω k (by rw [r2]; exact hk)).1
  refine isIou_congr (fun d hd => ?_) (fun d hd => ?_) h1
  · simp only [hD.value n ω _ (inB_day ht hk hd), LtP]
    cases above <;> simp [Beyond]
  · simp only [Event, thrAt, hy.value n ω _ (inB_day ht hk hd), LtP]
    cases isOver <;> simp [Beyond]

/-- **C134**, ranks of an ensemble class with `N` members. Observation `z i ω 0` and members `z i ω 1`, ..., `z i ω N` almost
surely differ. Then the share of the days on which `rank_hist()` gives rank `j` settles at the probability that exactly
`j - 1` members are below the observation. If observation and members can be permuted without changing their joint
distribution, this is `1 / (N + 1)`: the histogram gets flat. -/
theorem C134_ranks {oi o : Nat → Ω → Obj (EnsX ℝ)} {w w' w1 : Nat → Ω → World (PyVal ℝ)}
    (h : ∀ n ω, construct (ensPrims c emb) mids (oi n ω) (w n ω) = (.ok (o n ω), w' n ω)) (hskip : c.skipNan = false)
    (hmap : ∀ n, MapOK c.workers c.mapAxis (s.insertIdx t (n + 1))) (hf : ∀ n ω, none ∉ (oi n ω).ext.f.data) {ax : Int}
    (hax : ∀ n ω, (o n ω).ext.axis = some ax) {N : Nat} {z : List Nat → Ω → Fin (N + 1) → ℝ}
    (hy : Recorded s t (fun n ω => (oi n ω).ext.o) fun i ω => z i ω 0)
    (hM : ∀ n ω i, InB (s.insertIdx t (n + 1)) i →
      membersAt (oi n ω).ext.f ax i = List.ofFn fun j : Fin N => some (z i ω j.succ)) (ht : t ≤ s.length) :
    ∃ r : Nat → Ω → NDArr (Option Nat),
      (∀ n ω, result .ensemble I (ensPrims c emb) mids (.slot .rankHist) (unsaved (o n ω)) (w1 n ω) =
        .ok (some (.ranks (r n ω)))) ∧
      ∀ k, InB s k → SameDays P (fun d ω => z (k.insertIdx t d) ω) → Distinct P (fun j ω => z (k.insertIdx t 0) ω j) →
        ∀ j, 1 ≤ j →
          let share := fun n ω => (Spec.numOf (List.range (n + 1)) fun d => (r n ω).get (k.insertIdx t d) = some j : ℝ) / (n + 1)
          Settles P share (P.real {ω | below (z (k.insertIdx t 0) ω) 0 = j - 1}) ∧
          (ExchLaw P (fun j ω => z (k.insertIdx t 0) ω j) → j ≤ N + 1 → Settles P share (1 / (N + 1))) := by
  have main := fun n ω => chance_rank (I := I) (Ω := Unit) (w1 := fun _ => w1 n ω) (fun _ => h n ω) hskip
    (by rw [← List.length_pos_iff, days_length ht]; omega) (hmap n) (fun _ => hf n ω) (fun _ => hax n ω)
    (Z := fun i j _ => z i ω j)
    ⟨fun _ => hy.shape n ω, fun i hi _ => hy.value n ω i hi, fun i hi _ => hM n ω i hi, fun _ _ _ => measurable_const⟩ ()
  choose r r1 r2 r3 using main
  refine ⟨r, r1, fun k hk rep hd j hj => ?_⟩
  have hB : MeasurableSet {v : Fin (N + 1) → ℝ | below v 0 = j - 1} := measurable_below 0 (measurableSet_singleton _)
  have hN : MeasurableSet {v : Fin (N + 1) → ℝ | ¬ Function.Injective v} := by
    have e : {v : Fin (N + 1) → ℝ | ¬ Function.Injective v} = ⋃ i, ⋃ j, {v | v i = v j ∧ i ≠ j} := by
      ext v
      simp [Function.Injective]
    rw [e]
    refine MeasurableSet.iUnion fun i => MeasurableSet.iUnion fun j => ?_
    by_cases hij : i = j
    · simp [hij]
    · simpa [hij] using measurableSet_eq_fun (measurable_pi_apply i) (measurable_pi_apply j)
  have hnull : P.real {ω | z (k.insertIdx t 0) ω ∈ {v : Fin (N + 1) → ℝ | ¬ Function.Injective v}} = 0 := by
    have := distinct_ae hd
    rw [ae_iff] at this
    rw [measureReal_def]
    exact (congrArg ENNReal.toReal this).trans ENNReal.toReal_zero
  have hset : Settles P (fun n ω => (Spec.numOf (List.range (n + 1)) fun d => (r n ω).get (k.insertIdx t d) = some j : ℝ) / (n + 1))
      (P.real {ω | below (z (k.insertIdx t 0) ω) 0 = j - 1}) := by
    have h1 := settles_numOf rep hB
    filter_upwards [h1, never_null rep hN hnull] with ω hω hinj
    refine hω.congr fun n => ?_
    congr 2
    refine numOf_congr fun d hd => ?_
    rw [r3 n ω _ (inB_day ht hk hd) (not_not.1 (hinj d)), Option.some.injEq]
    show below (z (k.insertIdx t d) ω) 0 = j - 1 ↔ 1 + below (z (k.insertIdx t d) ω) 0 = j
    omega
  refine ⟨hset, fun hE hjN => ?_⟩
  have := below_flat (P := P) (Z := fun j ω => z (k.insertIdx t 0) ω j)
    (fun j => (measurable_pi_apply j).comp (rep.meas 0)) hE hd 0 (r := j - 1) (by omega)
  push_cast at this
  rw [← this]
  exact hset

theorem unit_gauss (tr : Bool) (m : ℝ) {sd : ℝ} (hs : 0 < sd) (x : ℝ) : 0 ≤ gaussLaw tr m sd x ∧ gaussLaw tr m sd x ≤ 1 := by
  cases tr
  · exact ⟨(unit_normal m sd).lo x, (unit_normal m sd).hi x⟩
  · exact ⟨(unit_trunc m hs 0).lo x, (unit_trunc m hs 0).hi x⟩

theorem gauss_pit_values {oi o : Nat → Ω → Obj (ProbX ℝ)} {w1 : Nat → Ω → World (PyVal ℝ)} {tr : Bool} {m sd : List Nat → Ω → ℝ}
    {a : PyAxis} (g : GaussArchive c F emb mids s t tr oi o m sd Y a) (hE : ExactLib F.scipy) (hL : UnitLib F.scipy)
    (hpool : ∀ n, PoolOK c.workers c.mapAxis (s.insertIdx t (n + 1)))
    {req : Req A} (hreq : req = .slot .pit ∨ (req = .slot .rankHist ∧ ∀ n ω, (oi n ω).ext.members = .none)) (n : Nat) (ω : Ω) :
    ∃ r, result .gaussian I (gaussPrims c F emb) mids req (unsaved (o n ω)) (w1 n ω) = .ok (some (.num r)) ∧
      ∀ i, InB (s.insertIdx t (n + 1)) i → Y i ω ≠ 0 → r.get i = some (gaussLaw tr (m i ω) (sd i ω) (Y i ω)) := by
  obtain ⟨w, w', h⟩ := g.made n ω
  have hx : (o n ω).ext = (oi n ω).ext := (construct_prob (shared_gauss c F emb) h).1
  obtain ⟨mu, hmu, rmu⟩ := g.mu
  obtain ⟨sigma, hsg, rsg⟩ := g.sigma
  have hsh := g.observed.shape n ω
  obtain ⟨p, p1, p2, p3⟩ := gaussCdf_ok (c := c) (hmu n ω) (hsg n ω) (t := .array (oi n ω).ext.o) hL rfl
    (by rw [hsh]; exact hpool n)
  have hv : ∀ i, InB (s.insertIdx t (n + 1)) i → p.get i = some (gaussLaw tr (m i ω) (sd i ω) (Y i ω)) := by
    intro i hi
    have e3 := g.pos i ω
    rw [p3 i (by rw [hsh]; exact hi), thrAt, g.observed.value n ω i hi, rmu.value n ω i hi, rsg.value n ω i hi]
    simp only [gaussProb, ProbX.trunc, g.truncated n ω, gaussLaw]
    cases tr with
    | false => simpa using hE.norm _ _ _ e3
    | true =>
      simp only [beq_self_eq_true, if_true, ratio, e3.ne', if_false]
      rw [hE.truncnorm _ _ _ _ e3]
      congr 2
      field_simp
      ring
  have hm : req = .slot .pit ∨ (req = .slot .rankHist ∧ (gaussPrims c F emb).members (o n ω).ext = false) := by
    rcases hreq with rfl | ⟨rfl, hm⟩
    · exact .inl rfl
    · refine .inr ⟨rfl, ?_⟩
      rw [hx, show (gaussPrims c F emb).members (oi n ω).ext = match (oi n ω).ext.members with | .none => false | _ => true
        from rfl, hm n ω]
  rw [← hx] at p1 p2 hsh
  obtain ⟨r, r1, -, r3⟩ := pit_value (I := I) (mids := mids) (shared_gauss c F emb) (C := .gaussian) (by decide) p1 p2
    (fun k hk => by rw [hv k (hsh ▸ hk)]; simp) hm (w1 n ω)
  refine ⟨r, r1, fun i hi h0 => ?_⟩
  rw [r3 i (by rw [hsh]; exact hi), if_neg, hv i hi]
  rintro ⟨-, h2⟩
  rw [hx, g.observed.value n ω i hi] at h2
  exact h0 (Option.some.inj h2)

theorem gauss_pit_limit {tr : Bool} {m sd y : Nat → Ω → ℝ} (hs : ∀ d ω, 0 < sd d ω)
    (hm : ∀ d, Measurable (fun ω => (m d ω, sd d ω)) ∧ Measurable (y d))
    (hi : Pairwise fun d e => (fun ω => ((m d ω, sd d ω), y d ω)) ⟂ᵢ[P] fun ω => ((m e ω, sd e ω), y e ω))
    (hl : ∀ d, LawGiven P (fun ω => (m d ω, sd d ω)) (y d) fun e => gaussLaw tr e.1 e.2) :
    (∀ u, 0 ≤ u → u ≤ 1 → Settles P
      (fun n ω => (Spec.numOf (List.range (n + 1)) fun d => gaussLaw tr (m d ω) (sd d ω) (y d ω) ≤ u : ℝ) / (n + 1)) u) ∧
    ∀ᵐ ω ∂P, ∀ d, y d ω ≠ 0 :=
  pit_limit (P := P) (E := ℝ × ℝ) (K := fun d ω => (m d ω, sd d ω)) (Y := y) (G := fun e => gaussLaw tr e.1 e.2) hm hi
    (measurable_gaussLaw tr) (fun e => continuous_gaussLaw tr e.1 e.2) (fun d ω x => unit_gauss tr _ (hs d ω) x) hl

/-- **C134**, `pit()` of the Gaussian class, randomised or not, and `rank_hist()` without members to sample. The parameters
may depend on chance and change from day to day. If, for someone who knows the parameters of a day, they give the
distribution of the observation, and the days have nothing to do with each other, then the share of the days with a number of
at most `u` settles at `u`, with the days of the archive all different. -/
theorem C134_pit {oi o : Nat → Ω → Obj (ProbX ℝ)} {w1 : Nat → Ω → World (PyVal ℝ)} {tr : Bool} {m sd : List Nat → Ω → ℝ}
    {a : PyAxis} (g : GaussArchive c F emb mids s t tr oi o m sd Y a) (hE : ExactLib F.scipy) (hL : UnitLib F.scipy)
    (hpool : ∀ n, PoolOK c.workers c.mapAxis (s.insertIdx t (n + 1))) (ht : t ≤ s.length)
    {req : Req A} (hreq : req = .slot .pit ∨ (req = .slot .rankHist ∧ ∀ n ω, (oi n ω).ext.members = .none)) :
    ∃ r : Nat → Ω → NDArr (Fl ℝ),
      (∀ n ω, result .gaussian I (gaussPrims c F emb) mids req (unsaved (o n ω)) (w1 n ω) = .ok (some (.num (r n ω)))) ∧
      ∀ k, InB s k →
        let K := fun d ω => (m (k.insertIdx t d) ω, sd (k.insertIdx t d) ω)
        let y := fun d => Y (k.insertIdx t d)
        (∀ d, Measurable (K d) ∧ Measurable (y d)) →
        (Pairwise fun d e => (fun ω => (K d ω, y d ω)) ⟂ᵢ[P] fun ω => (K e ω, y e ω)) →
        (∀ d, LawGiven P (K d) (y d) fun e => gaussLaw tr e.1 e.2) → ∀ u, 0 ≤ u → u ≤ 1 →
        Settles P (fun n ω => (Spec.numOf (List.range (n + 1)) fun d => ∃ v ≤ u, (r n ω).get (k.insertIdx t d) = some v : ℝ) / (n + 1))
          u := by
  have main := fun n ω => gauss_pit_values (I := I) (w1 := w1) g hE hL hpool hreq n ω
  choose r r1 r2 using main
  refine ⟨r, r1, fun k hk hm hi hl u u0 u1 => ?_⟩
  obtain ⟨h1, h2⟩ := gauss_pit_limit (P := P) (fun d ω => g.pos (k.insertIdx t d) ω) hm hi hl
  filter_upwards [h1 u u0 u1, h2] with ω hω h0
  refine hω.congr fun n => ?_
  congr 2
  refine numOf_congr fun d hd => ?_
  rw [r2 n ω _ (inB_day ht hk hd) (h0 d)]
  constructor
  · exact fun h => ⟨_, h, rfl⟩
  · rintro ⟨v, hv, e⟩
    rw [Option.some.injEq] at e
    rw [e]
    exact hv

end Props
