import Verif.Props.Integration
import Verif.Spec.RaySession

/-!
# Integrations after a failed one: C112
-/

set_option linter.unusedSectionVars false

namespace Props
open Np NDArr Model Spec

variable {K : Type} [Field K] [LinearOrder K] [IsStrictOrderedRing K]

/-- the progress settings can be parsed, and this many workers are asked for -/
def Setting (env : Env) (n : Int) : Prop :=
  (∃ d b, env "pyanen_tqdm_disable" = some d ∧ strtobool d = .ok b) ∧
    ∃ v, env "pyanen_tqdm_workers" = some v ∧ pyInt v = .ok n

theorem suppress_ok {env : Env} {n : Int} (h : Setting env n) (cores : Int) :
    ∃ b, suppress cores env = .ok (b, if cores > 1 then
      (env.write "pyanen_tqdm_disable" "True".toList).write "pyanen_tqdm_workers" "1".toList
      else env.write "pyanen_tqdm_disable" "True".toList) := by
  obtain ⟨⟨d, b, hd, hb⟩, v, hv, hn⟩ := h
  refine ⟨(b, n), ?_⟩
  simp only [suppress, Env.read, hd, hv, hb, hn, bind, Except.bind, pure, Except.pure]

theorem suppressed {env : Env} {n : Int} (h : Setting env n) (hn : 1 ≤ n) :
    Setting (if n > 1 then (env.write "pyanen_tqdm_disable" "True".toList).write "pyanen_tqdm_workers" "1".toList
      else env.write "pyanen_tqdm_disable" "True".toList) 1 := by
  obtain ⟨⟨d, b, hd, hb⟩, v, hv, hnv⟩ := h
  split
  · refine ⟨⟨"True".toList, 1, rfl, by decide⟩, "1".toList, rfl, by decide⟩
  · refine ⟨⟨"True".toList, 1, rfl, by decide⟩, v, ?_, ?_⟩
    · simpa [Env.write] using hv
    · rw [hnv]
      congr 1
      omega

theorem fresh_iff {I : Integ K} (ho : ∀ l, (I.order l).Perm l) (kind : Kind) (r : NDArr (Fl K)) :
    fresh I kind = some r ↔ ∃ rows, mapE I.row I.seq = .ok rows ∧ rows ≠ [] ∧ (∀ q ∈ rows, q.shape = I.shape) ∧
        r = ofFn I.shape fun k => combineAt kind I.seq fun i => (rows.getD i default).get k := by
  have h := integrate_iff { I with cores := 1, lessMemory := false } ho kind ⟨freshEnv, fun _ => none⟩ r
  have hs : ∃ p, suppress 1 freshEnv = .ok p := ⟨_, rfl⟩
  simp only [hs, true_and, Bool.false_eq_true, false_implies] at h
  rw [← h]
  unfold fresh
  cases (integrate { I with cores := 1, lessMemory := false } kind ⟨freshEnv, fun _ => none⟩).1 <;> simp

/-- any integration that starts succeeds exactly when a fresh process does, with the same array -/
theorem integrate_fresh {I : Integ K} {kind : Kind} (hI : OpOK (.integ I kind)) {n m : Int} {w : IWorld K}
    (hw : Setting w.env m) (r : NDArr (Fl K)) :
    (integrate { I with cores := n } kind w).1 = .ok r ↔ fresh I kind = some r := by
  obtain ⟨h1, h2, -, ho⟩ := hI
  rw [fresh_iff ho, integrate_iff { I with cores := n } ho]
  obtain ⟨b, hb⟩ := suppress_ok hw n
  have hs : ∃ p, suppress n w.env = .ok p := ⟨_, hb⟩
  have hg : I.lessMemory = true → I.seq.length * I.shape.prod ≠ 0 := fun _ =>
    Nat.mul_ne_zero (by simpa using h1) h2
  simp only [hs, true_and]
  constructor
  · exact fun h => h.2
  · exact fun h => ⟨hg, h⟩

theorem mem_mapE {α β : Type} {f : α → Except Err β} {l : List α} {ys : List β} (h : mapE f l = .ok ys) {y : β}
    (hy : y ∈ ys) : ∃ x ∈ l, f x = .ok y := by
  induction l generalizing ys with
  | nil =>
    cases h
    cases hy
  | cons a l ih =>
    simp only [mapE] at h
    cases ha : f a with
    | error e => rw [ha] at h; cases h
    | ok b =>
      cases hl : mapE f l with
      | error e => rw [ha, hl] at h; cases h
      | ok bs =>
        rw [ha, hl] at h
        cases h
        rcases List.mem_cons.1 hy with rfl | hy
        · exact ⟨a, List.mem_cons_self, ha⟩
        · obtain ⟨x, hx, hfx⟩ := ih hl hy
          exact ⟨x, List.mem_cons_of_mem _ hx, hfx⟩

theorem leftUp_fresh {I : Integ K} {kind : Kind} (hI : OpOK (.integ I kind)) (n : Int) :
    leftUp { I with cores := n } = (fresh I kind).isNone := by
  obtain ⟨h1, h2, h3, ho⟩ := hI
  have hgr := gridRows_iff n I.pick I.row I.seq
  unfold leftUp
  dsimp only
  cases hm : mapE I.row I.seq with
  | error e =>
    have hf : fresh I kind = none := by
      cases hf : fresh I kind with
      | none => rfl
      | some r =>
        obtain ⟨rows, hr, -⟩ := (fresh_iff ho kind r).1 hf
        rw [hm] at hr
        cases hr
    rw [hf]
    cases hg : gridRows n I.pick I.row I.seq with
    | error e => rfl
    | ok rows =>
      rw [(hgr rows).1 hg] at hm
      cases hm
  | ok rows =>
    rw [(hgr rows).2 hm]
    have hsh : ∀ q ∈ rows, q.shape = I.shape := by
      intro q hq
      obtain ⟨x, -, hx⟩ := mem_mapE hm hq
      exact h3 x q hx
    have hne : rows ≠ [] := by
      intro h
      have := mapE_length hm
      rw [h] at this
      exact h1 (List.eq_nil_of_length_eq_zero this.symm)
    have hf := (fresh_iff ho kind _).2 ⟨rows, hm, hne, hsh, rfl⟩
    rw [hf]
    cases rows with
    | nil => exact absurd rfl hne
    | cons c cs =>
      have hd : ∀ d ∈ cs, d.shape = c.shape := fun d hd => by
        rw [hsh d (List.mem_cons_of_mem _ hd), hsh c List.mem_cons_self]
      dsimp only
      split
      · rw [decide_eq_true hsh]
        rfl
      · rw [decide_eq_true hd]
        rfl

/-- a failed integration leaves the suppressed settings behind -/
theorem integrate_error_env {I : Integ K} {kind : Kind} {w : IWorld K} {b : Nat × Int} {env1 : Env}
    (hs : suppress I.cores w.env = .ok (b, env1)) {e : Err} (h : (integrate I kind w).1 = .error e) :
    (integrate I kind w).2.env = env1 := by
  unfold integrate at h ⊢
  rw [hs] at h ⊢
  dsimp only at h ⊢
  split at h
  · rename_i hc
    rw [if_pos hc]
  · rename_i hc
    rw [if_neg hc]
    have henv := (integBody_world I kind (if I.lessMemory = true then
      IWorld.setFile { w with env := env1 } I.scratch
        (some (List.replicate (I.seq.length * I.shape.prod) (some 0))) else { w with env := env1 })).1
    split at h
    · rename_i e' w3 heq
      rw [heq] at henv
      simp only at henv ⊢
      rw [henv]
      split <;> rfl
    · cases h

/-- one step -/
theorem ray_step {w : RWorld K} {n : Int} (hw : Setting w.iw.env n) (hn : 1 ≤ n) {op : RayOp K} (hop : OpOK op) :
    ∃ r w1, rayStep w op = some (r, w1) ∧ Matches r (ruleStep n w.ray op).1 ∧
      Setting w1.iw.env (ruleStep n w.ray op).2.1 ∧ 1 ≤ (ruleStep n w.ray op).2.1 ∧ w1.ray = (ruleStep n w.ray op).2.2 := by
  cases op with
  | workers m =>
    refine ⟨none, _, rfl, trivial, ?_, hop, rfl⟩
    obtain ⟨⟨d, b, hd, hb⟩, -⟩ := hw
    refine ⟨⟨d, b, ?_, hb⟩, intStr m, ?_, pyInt_intStr m⟩
    · simpa [Env.write] using hd
    · simp [Env.write]
  | integ I kind =>
    have hread : (w.iw.env.read "pyanen_tqdm_workers" >>= pyInt) = .ok n := by
      obtain ⟨-, v, hv, hnv⟩ := hw
      simp only [Env.read, hv, bind, Except.bind, hnv]
    obtain ⟨b, hsup⟩ := suppress_ok hw n
    have hint := integrate_fresh hop (n := n) hw
    have hsetting : ∀ r, (integrate { I with cores := n } kind w.iw).1 = .ok r →
        Setting (integrate { I with cores := n } kind w.iw).2.env n := by
      intro r hr
      obtain ⟨⟨d, d', b', h1, h2, h3, h4⟩, ⟨v, v', m, h5, h6, h7, h8⟩, -⟩ :=
        C32_restored_partial { I with cores := n } kind w.iw _ r (Prod.ext hr rfl)
      refine ⟨⟨d', b', h2, h4⟩, v', h6, ?_⟩
      obtain ⟨-, u, hu, hnu⟩ := hw
      rw [hu] at h5
      cases h5
      rw [h8, ← h7, hnu]
    have hbad : ∀ e, (integrate { I with cores := n } kind w.iw).1 = .error e →
        Setting (integrate { I with cores := n } kind w.iw).2.env 1 := by
      intro e he
      rw [integrate_error_env (I := { I with cores := n }) hsup he]
      exact suppressed hw hn
    simp only [rayStep, hread, rayIntegrate, ruleStep]
    rw [if_neg (by omega)]
    by_cases h1 : n = 1
    · subst h1
      simp only [↓reduceIte, Option.map_some]
      refine ⟨_, _, rfl, ?_⟩
      dsimp only
      cases hf : fresh I kind with
      | some r =>
        have hr := (hint r).2 hf
        rw [hr]
        exact ⟨rfl, hsetting r hr, le_rfl, rfl⟩
      | none =>
        cases hr : (integrate { I with cores := 1 } kind w.iw).1 with
        | ok r =>
          rw [(hint r).1 hr] at hf
          cases hf
        | error e => exact ⟨trivial, hbad e hr, le_rfl, rfl⟩
    · rw [if_neg h1, if_neg h1, hsup]
      have hgd : ¬ (I.lessMemory = true ∧ I.seq.length * I.shape.prod = 0) := by
        rintro ⟨-, h⟩
        exact Nat.mul_ne_zero (by simpa using hop.1) hop.2.1 h
      dsimp only
      rw [if_neg hgd]
      cases hray : w.ray with
      | true =>
        refine ⟨_, _, rfl, rfl, ?_, le_rfl, by simp⟩
        dsimp only [↓reduceIte]
        have := suppressed hw hn
        simp only [↓reduceIte]
        split
        · exact this
        · exact this
      | false =>
        simp only [Bool.false_eq_true, ↓reduceIte, Option.map_some]
        refine ⟨_, _, rfl, ?_⟩
        dsimp only
        rw [leftUp_fresh hop n]
        cases hf : fresh I kind with
        | some r =>
          have hr := (hint r).2 hf
          rw [hr]
          exact ⟨rfl, hsetting r hr, hn, rfl⟩
        | none =>
          cases hr : (integrate { I with cores := n } kind w.iw).1 with
          | ok r =>
            rw [(hint r).1 hr] at hf
            cases hf
          | error e => exact ⟨trivial, hbad e hr, le_rfl, rfl⟩

/-- **C112**, what is true: every history of integrations and of changes of the number of workers goes by the rules
`Spec.rules`, whatever the verifiers, memory modes, completion orders and whoever fails.  An integration gives what it gives in
a fresh process, unless an earlier one failed in parallel and the number of workers has been set to more than one again:
then it raises. -/
theorem C112_history_partial {w : RWorld K} {n : Int} (hw : Setting w.iw.env n) (hn : 1 ≤ n) (ops : List (RayOp K))
    (hops : ∀ op ∈ ops, OpOK op) :
    ∃ rs w', rayRun w ops = some (rs, w') ∧ List.Forall₂ Matches rs (rules n w.ray ops) := by
  induction ops generalizing w n with
  | nil => exact ⟨[], w, rfl, .nil⟩
  | cons op ops ih =>
    obtain ⟨r, w1, h1, h2, h3, h4, h5⟩ := ray_step hw hn (hops op List.mem_cons_self)
    obtain ⟨rs, w', h6, h7⟩ := ih h3 h4 fun o ho => hops o (List.mem_cons_of_mem _ ho)
    refine ⟨r :: rs, w', ?_, ?_⟩
    · simp only [rayRun, h1, h6, bind, Option.bind, pure]
    · rw [h5] at h7
      exact .cons h2 h7

/-- **C112**, the full claim: as long as the settings are valid, an integration gives what it gives in a fresh process, whatever
went on in the process before. -/
def C112_statement (K : Type) [Field K] [LinearOrder K] [IsStrictOrderedRing K] : Prop :=
  ∀ (w : RWorld K) (n : Int) (ops : List (RayOp K)) (I : Integ K) (kind : Kind), Setting w.iw.env n → 1 ≤ n → w.ray = false →
    (∀ op ∈ ops, OpOK op) → OpOK (.integ I kind) → ∃ rs w' o,
    rayRun w (ops ++ [.integ I kind]) = some (rs ++ [o], w') ∧ rs.length = ops.length ∧
    ∀ r, o = some (.ok r) ↔ fresh I kind = some r

theorem rules_good (n : Int) (ops : List (RayOp K)) (hg : ∀ I kind, .integ I kind ∈ ops → (fresh I kind).isSome = true) :
    List.Forall₂ (fun op o => match op, o with
      | .workers _, .set => True
      | .integ I kind, .value r => fresh I kind = some r
      | _, _ => False) ops (rules n false ops) := by
  induction ops generalizing n with
  | nil => exact .nil
  | cons op ops ih =>
    have hg' : ∀ I kind, .integ I kind ∈ ops → (fresh I kind).isSome = true :=
      fun I kind h => hg I kind (List.mem_cons_of_mem _ h)
    cases op with
    | workers m => exact .cons trivial (ih m hg')
    | integ I kind =>
      obtain ⟨r, hr⟩ := Option.isSome_iff_exists.1 (hg I kind List.mem_cons_self)
      simp only [rules, ruleStep, hr, Bool.false_eq_true, ↓reduceIte]
      by_cases h1 : n = 1
      · simp only [h1, ↓reduceIte]
        exact .cons hr (ih 1 hg')
      · simp only [h1, ↓reduceIte]
        exact .cons hr (ih n hg')

/-- **C112**: while nothing raises, every integration gives what it gives in a fresh process, with any number of workers. -/
theorem C112_without_failure {w : RWorld K} {n : Int} (hw : Setting w.iw.env n) (hn : 1 ≤ n) (hr : w.ray = false)
    (ops : List (RayOp K)) (hops : ∀ op ∈ ops, OpOK op)
    (hg : ∀ I kind, .integ I kind ∈ ops → (fresh I kind).isSome = true) :
    ∃ rs w', rayRun w ops = some (rs, w') ∧ List.Forall₂ (fun op o => match op, o with
      | .workers _, none => True
      | .integ I kind, some (.ok r) => fresh I kind = some r
      | _, _ => False) ops rs := by
  obtain ⟨rs, w', h1, h2⟩ := C112_history_partial hw hn ops hops
  refine ⟨rs, w', h1, ?_⟩
  rw [hr] at h2
  have h3 := rules_good n ops hg
  have key : ∀ (op : RayOp K) (o : Outcome K) (r' : Option (Except Err (NDArr (Fl K)))), (match op, o with
      | .workers _, .set => True
      | .integ I kind, .value r => fresh I kind = some r
      | _, _ => False) → Matches r' o → (match op, r' with
      | .workers _, none => True
      | .integ I kind, some (.ok r) => fresh I kind = some r
      | _, _ => False) := by
    intro op o r' ha hm
    cases op <;> cases o <;> try exact ha.elim
    · rcases r' with _ | (_ | _) <;> trivial
    · rcases r' with _ | (e | r) <;> try exact hm.elim
      obtain rfl : r = _ := hm
      exact ha
  generalize rules n false ops = l at h2 h3
  clear h1 hops hg hw hn
  induction h3 generalizing rs with
  | nil =>
    cases h2
    exact .nil
  | cons ha _ ih =>
    cases h2 with
    | cons hm h2 =>
      exact .cons (key _ _ _ ha hm) (ih _ h2)

/-- **C112**: after a failure an integration may raise, but a number that comes out is still the right one. -/
theorem C112_values {w : RWorld K} {n : Int} (hw : Setting w.iw.env n) (hn : 1 ≤ n)
    (ops : List (RayOp K)) (hops : ∀ op ∈ ops, OpOK op) {rs : List (Option (Except Err (NDArr (Fl K))))} {w' : RWorld K}
    (h : rayRun w ops = some (rs, w')) :
    List.Forall₂ (fun op o => ∀ I kind r, op = .integ I kind → o = some (.ok r) → fresh I kind = some r) ops rs := by
  obtain ⟨rs', w'', h1, h2⟩ := C112_history_partial hw hn ops hops
  rw [h] at h1
  obtain ⟨rfl, rfl⟩ := Prod.mk.inj (Option.some.inj h1)
  have key : ∀ (n : Int) (br : Bool) (ops : List (RayOp K)) rs, List.Forall₂ Matches rs (rules n br ops) →
      List.Forall₂ (fun op o => ∀ I kind r, op = .integ I kind → o = some (.ok r) → fresh I kind = some r) ops rs := by
    intro n br ops
    induction ops generalizing n br with
    | nil =>
      intro rs h
      cases h
      exact .nil
    | cons op ops ih =>
      intro rs h
      simp only [rules] at h
      cases h with
      | cons hm h =>
        refine .cons ?_ (ih _ _ _ h)
        rintro I kind r rfl rfl
        simp only [ruleStep] at hm
        split at hm
        · split at hm
          · rename_i r' hr'
            rw [hr', show r = r' from hm]
          · exact hm.elim
        · split at hm
          · exact hm.elim
          · split at hm
            · rename_i r' hr'
              rw [hr', show r = r' from hm]
            · exact hm.elim
  exact key n w.ray ops rs h2

/-! ### a case -/

/-- a verifier without a shape problem -/
def goodInteg : Integ ℚ :=
  { cores := 1, lessMemory := false, seq := [0, 1], shape := [1], scratch := "s",
    row := fun x => .ok ⟨[1], [some x], rfl⟩, pick := fun _ => 0, order := id }

/-- one whose second task raises -/
def badInteg : Integ ℚ :=
  { goodInteg with row := fun x => if x = 0 then .ok ⟨[1], [some x], rfl⟩ else .error .value }

theorem opOK_good (kind : Kind) : OpOK (.integ goodInteg kind) := by
  refine ⟨by simp [goodInteg], by simp [goodInteg], ?_, fun l => .refl l⟩
  intro x r h
  cases h
  rfl

theorem opOK_bad (kind : Kind) : OpOK (.integ badInteg kind) := by
  refine ⟨by simp [badInteg, goodInteg], by simp [badInteg, goodInteg], ?_, fun l => .refl l⟩
  intro x r h
  simp only [badInteg] at h
  split at h
  · cases h
    rfl
  · cases h

def dataOut (o : Option (Except Err (NDArr (Fl ℚ)))) : Except (Option Err) (List (Fl ℚ)) :=
  match o with
  | some (.ok r) => .ok r.data
  | some (.error e) => .error (some e)
  | none => .error none

/-- a fresh process -/
def process : RWorld ℚ := ⟨⟨freshEnv, fun _ => none⟩, false⟩

/-- two workers, a failure, a good one, two workers again, a good one twice -/
def story : List (RayOp ℚ) :=
  [.workers 2, .integ goodInteg .mean, .integ badInteg .crps, .integ goodInteg .mean, .workers 2, .integ goodInteg .mean,
    .integ goodInteg .mean]

theorem setting_fresh : Setting freshEnv 1 := ⟨⟨['0'], 0, rfl, by decide⟩, ['1'], rfl, by decide⟩

/-- The hypotheses can be met; this is what the rules say. -/
example : (∀ op ∈ story, OpOK op) ∧ Setting process.iw.env 1 ∧
    ((rayRun process story).map fun c => (c.1.map fun o => (dataOut o).toOption)) =
      some [none, some [some (1 / 2)], none, some [some (1 / 2)], none, none, some [some (1 / 2)]] := by
  refine ⟨?_, setting_fresh, by decide +kernel⟩
  intro op h
  simp only [story, List.mem_cons, List.not_mem_nil, or_false] at h
  rcases h with rfl | rfl | rfl | rfl | rfl | rfl | rfl
  · exact (by decide : (1 : Int) ≤ 2)
  · exact opOK_good _
  · exact opOK_bad _
  · exact opOK_good _
  · exact (by decide : (1 : Int) ≤ 2)
  · exact opOK_good _
  · exact opOK_good _

/-- **C112** is false: after an integration that failed on two workers, and with two workers asked for again, good data raise
a `RuntimeError`. -/
theorem C112_false : ¬ C112_statement ℚ := by
  intro h
  obtain ⟨rs, w', o, h1, h2, h3⟩ := h process 1 [.workers 2, .integ badInteg .crps, .workers 2] goodInteg .mean setting_fresh
    le_rfl rfl (by
      intro op h
      simp only [List.mem_cons, List.not_mem_nil, or_false] at h
      rcases h with rfl | rfl | rfl
      · exact (by decide : (1 : Int) ≤ 2)
      · exact opOK_bad _
      · exact (by decide : (1 : Int) ≤ 2)) (opOK_good _)
  have hrun : ((rayRun process ([.workers 2, .integ badInteg .crps, .workers 2] ++ [.integ goodInteg .mean])).map fun c =>
      c.1.map fun o => match o with
        | some (.error e) => some e
        | _ => none) = some [none, some .value, none, some .runtime] := by decide +kernel
  have hf : (fresh goodInteg .mean).isSome = true := by decide +kernel
  obtain ⟨r, hr⟩ := Option.isSome_iff_exists.1 hf
  rw [h1, (h3 r).2 hr] at hrun
  simp only [Option.map_some, List.map_append, List.map_cons, List.map_nil, Option.some.injEq] at hrun
  have := congrArg List.getLast? hrun
  simp at this

/-- An integration over no points at all with several workers, not in the memory efficient mode: no value, but nothing is
fetched, so Ray is shut down and the next integration can start it. -/
theorem C112_no_points {I : Integ K} (hs : I.seq = []) (hl : I.lessMemory = false) (hc : 1 < I.cores) (kind : Kind)
    {w : RWorld K} {n : Int} (hw : Setting w.iw.env n) (hr : w.ray = false) :
    ∃ o w1, rayIntegrate I kind w = some (o, w1) ∧ w1.ray = false := by
  obtain ⟨b, hb⟩ := suppress_ok hw I.cores
  have hu : leftUp I = false := by
    have hg : gridRows I.cores I.pick I.row I.seq = .ok [] := (gridRows_iff _ _ _ _ _).2 (by rw [hs]; rfl)
    unfold leftUp
    rw [hg]
    simp [hl]
  unfold rayIntegrate
  rw [if_neg (by omega), if_neg (by omega), hb]
  simp only [hl, hr, hu, Bool.false_eq_true, false_and, if_false]
  exact ⟨_, _, rfl, rfl⟩

/-- Without workers there is no outcome to speak of (Ray refuses the number, or the tasks wait for a CPU for ever). -/
theorem C112_no_workers {I : Integ K} (hc : I.cores ≤ 0) (kind : Kind) (w : RWorld K) : rayIntegrate I kind w = none := by
  unfold rayIntegrate
  rw [if_pos hc]

example : ({ goodInteg with seq := [], lessMemory := false, cores := 2 } : Integ ℚ).seq = [] ∧
    (1 : Int) < ({ goodInteg with seq := [], lessMemory := false, cores := 2 } : Integ ℚ).cores ∧ process.ray = false :=
  ⟨rfl, by decide, rfl⟩

end Props
