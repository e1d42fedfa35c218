import Verif.Props.Files
import Verif.Spec.Repeat

/-!
# C126: with saving, an answer once given stays
-/

set_option linter.unusedSectionVars false

namespace Props
open Np Model Spec

variable {X V A : Type} {C : Cls} {I : ArgInfo A} {P : Prims X V A} {mids : FS V → Path → List (FS V)}

/-- what a request does with the array it is computed from -/
def reqPost (P : Prims X V A) (avg : PyAxis) (boot : PyBoot) : Req A → V → Prog V
  | .slot s => slotPost P avg boot s
  | .rmse => bootOrAvgP P avg boot P.sqrt

/-- the postprocessing has no calls: at most one draw, then a result -/
theorem reqPost_quiet (avg : PyAxis) (boot : PyBoot) (r : Req A) (v : V) :
    (boot = .none ∨ ¬ Resampled r → ∃ e, reqPost P avg boot r v = .ret e) ∧
    ((∃ e, reqPost P avg boot r v = .ret e) ∨ ∃ e : Nat → Except Err V, reqPost P avg boot r v = .draw fun s => .ret (e s)) := by
  have one : ∀ g : V → Except Err V, (boot = .none → ∃ e, bootOrAvgP P avg boot g v = .ret e) ∧
      ((∃ e, bootOrAvgP P avg boot g v = .ret e) ∨
        ∃ e : Nat → Except Err V, bootOrAvgP P avg boot g v = .draw fun s => .ret (e s)) := by
    intro g
    unfold bootOrAvgP
    by_cases h : boot = .none
    · simp [h]
    · simp only [h, if_false, false_implies, true_and]
      exact Or.inr ⟨_, rfl⟩
  have two : ∀ (f : V → Except Err V) (g : V → PyBoot → Nat → Except Err V),
      (boot = .none → ∃ e, postBins boot f g v = .ret e) ∧
      ((∃ e, postBins boot f g v = .ret e) ∨
        ∃ e : Nat → Except Err V, postBins boot f g v = .draw fun s => .ret (e s)) := by
    intro f g
    unfold postBins
    by_cases h : boot = .none
    · simp [h]
    · simp only [h, if_false, false_implies, true_and]
      exact Or.inr ⟨_, rfl⟩
  cases r with
  | rmse => exact ⟨fun h => (one P.sqrt).1 (h.resolve_right fun hn => hn trivial), (one P.sqrt).2⟩
  | slot s =>
    cases s
    case crps => exact ⟨fun h => (one .ok).1 (h.resolve_right fun hn => hn trivial), (one .ok).2⟩
    case error => exact ⟨fun h => (one .ok).1 (h.resolve_right fun hn => hn trivial), (one .ok).2⟩
    case spread => exact ⟨fun h => (one .ok).1 (h.resolve_right fun hn => hn trivial), (one .ok).2⟩
    case sqError => exact ⟨fun h => (one .ok).1 (h.resolve_right fun hn => hn trivial), (one .ok).2⟩
    case abError => exact ⟨fun h => (one .ok).1 (h.resolve_right fun hn => hn trivial), (one .ok).2⟩
    case brier => exact ⟨fun h => (one .ok).1 (h.resolve_right fun hn => hn trivial), (one .ok).2⟩
    case reliability => exact ⟨fun h => (two _ _).1 (h.resolve_right fun hn => hn trivial), (two _ _).2⟩
    case ss => exact ⟨fun h => (two _ _).1 (h.resolve_right fun hn => hn trivial), (two _ _).2⟩
    all_goals exact ⟨fun _ => ⟨_, rfl⟩, Or.inl ⟨_, rfl⟩⟩

/-- a method the class has is a call under the name of its array -/
theorem metricProg_call {x : X} {avg : PyAxis} {boot : PyBoot} {r : Req A} {n : Name}
    (hn : slotName I (reqSlot r) = .ok (some n)) (hm : ∀ s, r = .slot s → ¬ (s.probOnly = true ∧ (C = .determ ∨ C = .ensemble))) :
    ∃ body, metricProg C I P x avg boot r = .call (some n) body (reqPost P avg boot r) := by
  cases r with
  | rmse =>
    simp only [reqSlot] at hn
    exact ⟨_, by simp only [metricProg, Prog.callName, hn]; rfl⟩
  | slot s =>
    simp only [reqSlot] at hn
    exact ⟨slotBody C I P x avg boot s, by simp only [metricProg, if_neg (hm s rfl), Prog.callName, hn]; rfl⟩

/-- an answer comes from a method the class has -/
theorem answered {r : Req A} {o : Obj X} {w w' : World V} {v : V} {o' : Obj X}
    (h : step C I P mids (.metric r) o w = (.ok (some v), o', w')) :
    ∀ s, r = .slot s → ¬ (s.probOnly = true ∧ (C = .determ ∨ C = .ensemble)) := by
  rintro s rfl hc
  simp only [step, metricProg, if_pos hc, Prog.run] at h
  cases h

/-- a call run to its end leaves its array on disk, and the answer is made of it -/
theorem call_stored {d : Path} {n : Name} {body : Prog V} {k : V → Prog V} {w w' : World V} {v : V}
    (hk : ∀ a, (∃ e, k a = .ret e) ∨ ∃ e : Nat → Except Err V, k a = .draw fun s => .ret (e s))
    (h : (Prog.call (some n) body k).run (some d) w = (.ok v, w')) :
    ∃ a w1, w'.fs (filePath d n) = some (.file (.full a)) ∧ (k a).run (some d) w1 = (.ok v, w') := by
  have keep : ∀ a (w1 : World V), ((k a).run (some d) w1).2.fs = w1.fs := by
    intro a w1
    rcases hk a with ⟨e, he⟩ | ⟨e, he⟩ <;> rw [he] <;> rfl
  simp only [Prog.run] at h
  cases hl : load (some d) (some n) w with
  | error e => rw [hl] at h; cases h
  | ok l =>
    rw [hl] at h
    cases l with
    | some a =>
      simp only at h
      refine ⟨a, w, ?_, h⟩
      have := keep a w
      rw [h] at this
      simp only at this
      rw [this]
      simp only [load] at hl
      split at hl
      · cases hl
      · rename_i b hb
        injection hl with hl
        injection hl with hl
        rw [hb, hl]
      · cases hl
      · cases hl
    | none =>
      simp only at h
      rcases hb : body.run (some d) w with ⟨r1, w1⟩
      rw [hb] at h
      cases r1 with
      | error e => cases h
      | ok a =>
        simp only at h
        rcases save_cases (some d) (some n) a w1 with ⟨-, h1 | h1⟩ | ⟨e, hs⟩ | ⟨d', n', hd, hn, -, hs⟩
        · cases h1
        · cases h1
        · rw [hs] at h; cases h
        · cases hd
          cases hn
          rw [hs] at h
          simp only at h
          refine ⟨a, _, ?_, h⟩
          have := keep a { w1 with
            fs := w1.fs.set (filePath d n) (some (.file (.full a))),
            trace := w1.trace ++ [w1.fs.set (filePath d n) (some (.file .torn)),
              w1.fs.set (filePath d n) (some (.file (.full a)))] }
          rw [h] at this
          simp only at this
          rw [this]
          simp [FS.set]

/-- **C126** (nothing is computed again): once a metric of a verifier that saves has answered, the same call - in any
later state of the process in which the file is still there, whatever else was done - touches no file and uses at most
one random number; without bootstrapping, and for metrics that do not bootstrap, it uses none and returns the same
answer. -/
theorem C126_repeat {r : Req A} {o : Obj X} {d : Path} {n : Name} (hd : o.dir = .path d)
    (hn : slotName I (reqSlot r) = .ok (some n)) {w w1 : World V} {v : V}
    (h : step C I P mids (.metric r) o w = (.ok (some v), o, w1)) (w2 : World V)
    (hf : w2.fs (filePath d n) = w1.fs (filePath d n)) :
    Untouched w2 (step C I P mids (.metric r) o w2).2.2 ∧
    (step C I P mids (.metric r) o w2).2.2.pos ≤ w2.pos + 1 ∧
    (o.boot = .none ∨ ¬ Resampled r → step C I P mids (.metric r) o w2 = (.ok (some v), o, w2)) := by
  obtain ⟨body, hp⟩ := metricProg_call (P := P) (x := o.ext) (avg := o.avg) (boot := o.boot) hn (answered h)
  have hwd : o.wd = some d := by simp [Obj.wd, hd]
  have hrun : (Prog.call (some n) body (reqPost P o.avg o.boot r)).run (some d) w = (.ok v, w1) := by
    simp only [step, hp, hwd] at h
    rcases hq : (Prog.call (some n) body (reqPost P o.avg o.boot r)).run (some d) w with ⟨r1, w'⟩
    rw [hq] at h
    cases r1 with
    | error e => simp at h
    | ok v' =>
      simp only [Prod.mk.injEq, Except.ok.injEq, Option.some.injEq] at h
      obtain ⟨rfl, -, rfl⟩ := h
      rfl
  obtain ⟨a, w0, ha, hpost⟩ := call_stored (fun a => (reqPost_quiet o.avg o.boot r a).2) hrun
  have h2 : (Prog.call (some n) body (reqPost P o.avg o.boot r)).run (some d) w2 =
      (reqPost P o.avg o.boot r a).run (some d) w2 := by
    simp only [Prog.run, load, hf, ha]
  have key : ∀ r1 w', (reqPost P o.avg o.boot r a).run (some d) w2 = (r1, w') →
      (step C I P mids (.metric r) o w2).2.2 = w' := by
    intro r1 w' e
    simp only [step, hp, hwd, h2, e]
    cases r1 <;> rfl
  refine ⟨?_, ?_, fun hq => ?_⟩
  · rcases (reqPost_quiet (P := P) o.avg o.boot r a).2 with ⟨e, he⟩ | ⟨e, he⟩
    · rw [key e w2 (by rw [he]; rfl)]; exact ⟨rfl, rfl⟩
    · rw [key (e (w2.seed w2.pos)) { w2 with pos := w2.pos + 1 } (by rw [he]; rfl)]; exact ⟨rfl, rfl⟩
  · rcases (reqPost_quiet (P := P) o.avg o.boot r a).2 with ⟨e, he⟩ | ⟨e, he⟩
    · rw [key e w2 (by rw [he]; rfl)]; omega
    · rw [key (e (w2.seed w2.pos)) { w2 with pos := w2.pos + 1 } (by rw [he]; rfl)]
  · obtain ⟨e, he⟩ := (reqPost_quiet (P := P) o.avg o.boot r a).1 hq
    rw [he] at hpost h2
    simp only [Prog.run, Prod.mk.injEq] at hpost
    simp only [step, hp, hwd, h2, Prog.run, hpost.1]

/-- the file of an answered call is complete -/
theorem answered_file {r : Req A} {o : Obj X} {d : Path} {n : Name} (hd : o.dir = .path d)
    (hn : slotName I (reqSlot r) = .ok (some n)) {w w1 : World V} {v : V}
    (h : step C I P mids (.metric r) o w = (.ok (some v), o, w1)) :
    ∃ a, w1.fs (filePath d n) = some (.file (.full a)) := by
  obtain ⟨body, hp⟩ := metricProg_call (P := P) (x := o.ext) (avg := o.avg) (boot := o.boot) hn (answered h)
  have hwd : o.wd = some d := by simp [Obj.wd, hd]
  simp only [step, hp, hwd] at h
  rcases hq : (Prog.call (some n) body (reqPost P o.avg o.boot r)).run (some d) w with ⟨r1, w'⟩
  rw [hq] at h
  cases r1 with
  | error e => simp at h
  | ok v' =>
    simp only [Prod.mk.injEq, Except.ok.injEq, Option.some.injEq] at h
    obtain ⟨rfl, -, rfl⟩ := h
    obtain ⟨a, -, ha, -⟩ := call_stored (fun a => (reqPost_quiet o.avg o.boot r a).2) hq
    exact ⟨a, ha⟩

/-- metric calls of other verifiers, one after the other, each with its own class, data and settings -/
inductive After : World V → World V → Prop
  | refl (w : World V) : After w w
  | call {X' A' : Type} {w w' : World V} (C' : Cls) (I' : ArgInfo A') (P' : Prims X' V A')
      (mids' : FS V → Path → List (FS V)) (r : Req A') (o : Obj X') (h : After w w') :
      After w (step C' I' P' mids' (.metric r) o w').2.2

/-- what is on disk stays -/
theorem After.keeps {w w' : World V} (h : After w w') {q : Path} {nd : Node V} (hq : w.fs q = some nd) :
    w'.fs q = some nd := by
  induction h with
  | refl => exact hq
  | call C' I' P' mids' r' o' _ ih => exact (C46_no_overwrite C' I' P' mids' r' o' _ _ _ (ih hq)).1

/-- **C126** (histories): between the two calls any number of metric calls may happen, of this verifier or of others
that use the same directory, whatever their results. -/
theorem C126_history {r : Req A} {o : Obj X} {d : Path} {n : Name} (hd : o.dir = .path d)
    (hn : slotName I (reqSlot r) = .ok (some n)) {w w1 : World V} {v : V}
    (h : step C I P mids (.metric r) o w = (.ok (some v), o, w1)) {w2 : World V} (ha : After w1 w2)
    (hq : o.boot = .none ∨ ¬ Resampled r) :
    step C I P mids (.metric r) o w2 = (.ok (some v), o, w2) := by
  obtain ⟨a, hfile⟩ := answered_file hd hn h
  refine (C126_repeat hd hn h w2 ?_).2.2 hq
  rw [hfile]
  exact ha.keeps hfile

/-! ### the sampled members -/

/-- **C126** (one sample): once `prob_to_ens()` of a verifier that saves has returned the members `e`, a later
`rank_hist()` ranks these very members, and a later `spread()` is the spread of these very members. -/
theorem C126_members (hC : C = .gaussian ∨ C = .gamma) {o : Obj X} {d : Path} (hd : o.dir = .path d) {w w1 : World V}
    {e : V} (h : step C I P mids (.metric (.slot .probToEns)) o w = (.ok (some e), o, w1)) {w2 : World V}
    (ha : After w1 w2) (hm : P.members o.ext = true) :
    (∀ v, w2.fs (filePath d "rank".toList) = none →
      (step C I P mids (.metric (.slot .rankHist)) o w2).1 = .ok (some v) →
        P.rankOf o.ext e (w2.seed w2.pos) = .ok v) ∧
    (∀ v, o.boot = .none → w2.fs (filePath d "spread".toList) = none →
      (step C I P mids (.metric (.slot .spread)) o w2).1 = .ok (some v) →
        (P.spreadOf o.ext e >>= fun a => P.avg a o.avg) = .ok v) := by
  have hn : slotName I (reqSlot (Req.slot (.probToEns : Slot A))) = .ok (some "prob_to_ens".toList) := rfl
  have hwd : o.wd = some d := by simp [Obj.wd, hd]
  -- the file of the members
  have hfile1 : w1.fs (filePath d "prob_to_ens".toList) = some (.file (.full e)) := by
    obtain ⟨body, hp⟩ := metricProg_call (P := P) (x := o.ext) (avg := o.avg) (boot := o.boot) hn (answered h)
    simp only [step, hp, hwd] at h
    rcases hq : (Prog.call (some "prob_to_ens".toList) body
      (reqPost P o.avg o.boot (.slot (.probToEns : Slot A)))).run (some d) w with ⟨r1, w'⟩
    rw [hq] at h
    cases r1 with
    | error e => simp at h
    | ok v' =>
      simp only [Prod.mk.injEq, Except.ok.injEq, Option.some.injEq] at h
      obtain ⟨rfl, -, rfl⟩ := h
      obtain ⟨a, w0, ha, hk⟩ := call_stored
        (fun a => (reqPost_quiet o.avg o.boot (.slot (.probToEns : Slot A)) a).2) hq
      simp only [reqPost, slotPost, Prog.run, Prod.mk.injEq, Except.ok.injEq] at hk
      rw [ha, hk.1]
  have hfile : w2.fs (filePath d "prob_to_ens".toList) = some (.file (.full e)) := ha.keeps hfile1
  have hload : load (some d) (some "prob_to_ens".toList) w2 = .ok (some e) := by simp only [load, hfile]
  have hnd : C ≠ .determ ∧ C ≠ .ensemble := by rcases hC with rfl | rfl <;> simp
  constructor
  · intro v hnone hr
    have hrn : slotName I (.rankHist : Slot A) = .ok (some "rank".toList) := rfl
    have hl : load (some d) (some "rank".toList) w2 = .ok none := by simp only [load, hnone]
    have hbody : slotBody C I P o.ext o.avg o.boot (.rankHist : Slot A) =
        .call (some "prob_to_ens".toList) (ensBody C P o.ext) fun e => .draw fun s => .ret (P.rankOf o.ext e s) := by
      rcases hC with rfl | rfl <;> simp [slotBody, hm, Prog.callName, slotName]
    simp only [step, metricProg, Slot.probOnly, Bool.false_eq_true, false_and, if_false, Prog.callName, hrn, hbody, hwd,
      Prog.run, hl, hload] at hr
    cases hk : P.rankOf o.ext e (w2.seed w2.pos) with
    | error er => rw [hk] at hr; simp at hr
    | ok a =>
      rw [hk] at hr
      simp only at hr
      rcases hs : save (some d) (some "rank".toList) a { w2 with pos := w2.pos + 1 } with ⟨r1, w3⟩
      rw [hs] at hr
      cases r1 with
      | error er => simp at hr
      | ok u =>
        simp only [slotPost, Prog.run, Except.ok.injEq, Option.some.injEq] at hr
        rw [hr]
  · intro v hb hnone hr
    have hrn : slotName I (.spread : Slot A) = .ok (some "spread".toList) := rfl
    have hl : load (some d) (some "spread".toList) w2 = .ok none := by simp only [load, hnone]
    have hbody : slotBody C I P o.ext o.avg o.boot (.spread : Slot A) =
        .call (some "prob_to_ens".toList) (ensBody C P o.ext) fun e => .ret (P.spreadOf o.ext e) := by
      rcases hC with rfl | rfl <;> simp [slotBody, Prog.callName, slotName]
    simp only [step, metricProg, Slot.probOnly, Bool.false_eq_true, false_and, if_false, Prog.callName, hrn, hbody, hwd,
      Prog.run, hl, hload] at hr
    cases hk : P.spreadOf o.ext e with
    | error er => rw [hk] at hr; simp at hr
    | ok a =>
      rw [hk] at hr
      simp only at hr
      rcases hs : save (some d) (some "spread".toList) a w2 with ⟨r1, w3⟩
      rw [hs] at hr
      cases r1 with
      | error er => simp at hr
      | ok u =>
        simp only [slotPost, bootOrAvgP, hb, if_true, Prog.run] at hr
        simp only [bind, Except.bind]
        cases hav : P.avg a o.avg with
        | error er => rw [hav] at hr; simp [bind, Except.bind] at hr
        | ok b =>
          rw [hav] at hr
          simpa [bind, Except.bind] using hr

/-- **C126** (without saving): every call draws its own members: after `prob_to_ens()` has used the random number at
the current position, `rank_hist()` samples again with the next one. -/
theorem C126_fresh (hC : C = .gaussian ∨ C = .gamma) {o : Obj X} (hd : o.dir = .none) {w : World V}
    (hm : P.members o.ext = true) :
    (step C I P mids (.metric (.slot .probToEns)) o w).1 = (P.sample o.ext (w.seed w.pos)).map some ∧
    (step C I P mids (.metric (.slot .rankHist)) o (step C I P mids (.metric (.slot .probToEns)) o w).2.2).1 =
      (P.sample o.ext (w.seed (w.pos + 1)) >>= fun e => P.rankOf o.ext e (w.seed (w.pos + 2))).map some := by
  have hwd : o.wd = none := by simp [Obj.wd, hd]
  have hens : ensBody C P o.ext = .draw fun s => .ret (P.sample o.ext s) := by
    rcases hC with rfl | rfl <;> simp [ensBody, hm]
  have hnd : C ≠ .determ ∧ C ≠ .ensemble := by rcases hC with rfl | rfl <;> simp
  have hpn : slotName I (.probToEns : Slot A) = .ok (some "prob_to_ens".toList) := rfl
  have hstep : step C I P mids (.metric (.slot .probToEns)) o w =
      ((P.sample o.ext (w.seed w.pos)).map some, o, { w with pos := w.pos + 1 }) := by
    simp only [step, metricProg, hnd.1, hnd.2, or_self, and_false, if_false, Prog.callName, hpn, hwd, Prog.run,
      load_none, slotBody, hens]
    cases P.sample o.ext (w.seed w.pos) with
    | error er => rfl
    | ok a => simp [save_none, slotPost, Prog.run, Except.map]
  rw [hstep]
  refine ⟨rfl, ?_⟩
  have hrn : slotName I (.rankHist : Slot A) = .ok (some "rank".toList) := rfl
  have hbody : slotBody C I P o.ext o.avg o.boot (.rankHist : Slot A) =
      .call (some "prob_to_ens".toList) (.draw fun s => .ret (P.sample o.ext s))
        fun e => .draw fun s => .ret (P.rankOf o.ext e s) := by
    rw [← hens]
    rcases hC with rfl | rfl <;> simp [slotBody, hm, Prog.callName, slotName]
  simp only [step, metricProg, Slot.probOnly, Bool.false_eq_true, false_and, if_false, Prog.callName, hrn, hbody, hwd,
    Prog.run, load_none]
  cases P.sample o.ext (w.seed (w.pos + 1)) with
  | error er => rfl
  | ok a =>
    simp only [save_none, bind, Except.bind]
    cases P.rankOf o.ext a (w.seed (w.pos + 1 + 1)) with
    | error er => rfl
    | ok b => simp [slotPost, Prog.run, Except.map]

end Props
