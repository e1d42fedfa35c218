import Verif.Lemmas.SaveName
import Verif.Props.Env

/-!
# The argument save_name: C87
-/

set_option linter.unusedSectionVars false

namespace Props
open Np Model Spec

variable {X V A : Type}

/-- With saving, starting from scratch: in any history of metric calls with default or own save names and of setters
that return, if no name is used for two different results, and `corr` and `brier_decomp` are not given a name, then a
call with a save name gives a result which the same call gives without saving. -/
theorem C87_partial (C : Cls) {I : ArgInfo A} (P : Prims X V A) {mids : FS V → Path → List (FS V)}
    (hm : Deletion mids) {oi o : Obj X} {w0 w : World V} (hw : WellFormed w0.fs) (hs : oi.scratch = some true)
    (hd : DirOk oi.dir) (hc : construct P mids oi w0 = (.ok o, w)) {calls : List (Option (List Char) × Req A)}
    (hn : NoClash I calls) (hf : ∀ q ∈ calls, IsFinal (stored q.2) → q.1 = none) (l : List (NOp X A))
    (hl : ∀ op ∈ l, CallOf calls op ∧ NFromScratch op) (hr : NSettersReturn C I P mids l o w)
    {name : Option (List Char)} {r : Req A} (hq : (name, r) ∈ calls) :
    let s := runN C I P mids l o w
    ∃ w', resultAs C I P mids name r (unsaved s.1) w' = resultAs C I P mids name r s.1 s.2 := by
  intro s
  have h := named_run C P hn hf hm l hl
    (envFresh_construct (fun _ : Unit => P) (fun _ => True) (NVal C P calls I) () hm hs hd hw hc) hr
  have hp := (run_clean _ (agree_named C P hn hf s.1.ext s.1.avg s.1.boot (q := (name, r)) hq) _ h.good).1 (allIn_true _)
  obtain ⟨w4, h4⟩ := (poss_iff _ _).1 hp
  refine ⟨w4, ?_⟩
  simp only [resultAs, stepN, unsaved, Obj.wd]
  rcases hr4 : (namedProg C I P s.1.ext s.1.avg s.1.boot name r).run none w4 with ⟨q4, w5⟩
  rcases hr : (namedProg C I P s.1.ext s.1.avg s.1.boot name r).run s.1.wd s.2 with ⟨q, w3⟩
  rw [hr4] at h4
  change q4 = ((namedProg C I P s.1.ext s.1.avg s.1.boot name r).run s.1.wd s.2).1 at h4
  rw [hr] at h4
  simp only at h4
  subst h4
  change _ = (match (namedProg C I P s.1.ext s.1.avg s.1.boot name r).run s.1.wd s.2 with
    | (.error e, w1) => ((.error e : Except Err (Option V)), s.1, w1)
    | (.ok v, w1) => (.ok (some v), s.1, w1)).1
  rw [hr]
  cases q4 <;> rfl

/-- Without saving the save name does not matter (as long as the names can be built: `to_name` raises for zero-size
arguments). -/
theorem C87_unsaved (C : Cls) (I : ArgInfo A) (P : Prims X V A) (mids : FS V → Path → List (FS V))
    (name : Option (List Char)) (r : Req A) {n n' : Option Name} (h1 : slotNameAs I name (stored r) = .ok n)
    (h2 : slotName I (stored r) = .ok n') (o : Obj X) (w : World V) :
    resultAs C I P mids name r (unsaved o) w = result C I P mids r (unsaved o) w := by
  have key : (namedProg C I P o.ext o.avg o.boot name r).run none w =
      (metricProg C I P o.ext o.avg o.boot r).run none w := by
    have hcall : ∀ (body : Prog V) (k : V → Prog V),
        (Prog.callName (.ok n) body k).run none w = (Prog.callName (.ok n') body k).run none w := by
      intro body k
      simp only [Prog.callName, Prog.run, load_none, save_none]
    cases r with
    | slot s =>
      simp only [namedProg, metricProg, stored] at h1 h2 ⊢
      split
      · rfl
      · rw [h1, h2]; exact hcall _ _
    | rmse =>
      simp only [namedProg, metricProg, stored] at h1 h2 ⊢
      rw [h1, h2]; exact hcall _ _
  simp only [resultAs, result, stepN, step, unsaved, Obj.wd]
  rw [key]
  rcases (metricProg C I P o.ext o.avg o.boot r).run none w with ⟨q, u⟩
  cases q <;> rfl

/-- Passing the default name is the same as passing none. -/
theorem C87_default (C : Cls) (I : ArgInfo A) (P : Prims X V A) (mids : FS V → Path → List (FS V)) (s : Slot A)
    (h : s.probOnly = false) (o : Obj X) (w : World V) :
    resultAs C I P mids (defaultName s) (.slot s) o w = result C I P mids (.slot s) o w := by
  simp only [resultAs, result, stepN, step, namedProg, metricProg, slotNameAs_default I h]
  split <;> rename_i hh <;> simp only [hh]

/-- `save_name=None` is always safe: in histories that use only default names and `None`, results are those without
saving. -/
theorem C87_none (C : Cls) {I : ArgInfo A} (hI : TextOK I) (P : Prims X V A) {mids : FS V → Path → List (FS V)}
    (hm : Deletion mids) {oi o : Obj X} {w0 w : World V} (hw : WellFormed w0.fs) (hs : oi.scratch = some true)
    (hd : DirOk oi.dir) (hc : construct P mids oi w0 = (.ok o, w)) (l : List (NOp X A))
    (hl : ∀ op ∈ l, NFromScratch op ∧ ∀ name r, op = .named name r → name = none)
    (hr : NSettersReturn C I P mids l o w) (r : Req A) :
    let s := runN C I P mids l o w
    ∃ w', resultAs C I P mids none r (unsaved s.1) w' = resultAs C I P mids none r s.1 s.2 := by
  let calls : List (Option (List Char) × Req A) := (none, r) :: l.filterMap fun op => match op with
    | .named name r => some (name, r)
    | .plain _ => none
  have hall : ∀ q ∈ calls, q.1 = none := by
    intro q hq
    rcases List.mem_cons.1 hq with rfl | hq
    · rfl
    · obtain ⟨op, hop, he⟩ := List.mem_filterMap.1 hq
      cases op with
      | plain op => cases he
      | named name r' =>
        cases he
        exact (hl _ hop).2 _ _ rfl
  have hstored : ∀ s n, StoredAs I calls s n → slotName I s = .ok (some n) := by
    rintro s n (h | ⟨q, hq, rfl, h⟩)
    · exact h
    · rw [hall q hq] at h
      unfold slotNameAs at h
      split at h <;> cases h
  refine C87_partial C P hm hw hs hd hc (calls := calls) ?_ (fun q hq _ => hall q hq) l ?_ hr (by simp [calls])
  · intro s s' n h1 h2
    exact slotName_inj hI (hstored s n h1) (hstored s' n h2)
  · intro op hop
    refine ⟨?_, (hl op hop).1⟩
    cases op with
    | plain op => trivial
    | named name r' =>
      refine List.mem_cons_of_mem _ (List.mem_filterMap.2 ⟨_, hop, rfl⟩)

/-! ### cases -/

/-- default names do not begin with `m` -/
theorem slotName_not_m {I : ArgInfo A} {s : Slot A} {n : Name} (h : slotName I s = .ok (some n)) :
    n.head? ≠ some 'm' := by
  obtain ⟨rfl, h1, h2⟩ := slotName_text h
  have hk := List.mem_of_getElem? (slotText_key I s ⟨h1, h2⟩)
  have hall : ∀ k ∈ slotKey, k.head? ≠ some 'm' := by decide
  intro hm
  refine hall _ hk ?_
  cases ht : slotText I s with
  | nil => rw [ht] at hm; cases hm
  | cons c t => rw [ht] at hm; simpa using hm

/-- names of one's own for two results, and `corr` without -/
def ownCalls : List (Option (List Char) × Req Int) :=
  [(some "mine".toList, .slot .error), (some "my_mse".toList, .rmse), (none, .slot .corr)]

example : NoClash intInfo ownCalls ∧ ∀ q ∈ ownCalls, IsFinal (stored q.2) → q.1 = none := by
  have hown : ∀ (s : Slot Int) n, (∃ q ∈ ownCalls, stored q.2 = s ∧ slotNameAs intInfo q.1 s = .ok (some n)) →
      (s = .error ∧ n = "mine".toList) ∨ (s = .sqError ∧ n = "my_mse".toList) := by
    rintro s n ⟨q, hq, rfl, h⟩
    simp only [ownCalls, List.mem_cons, List.not_mem_nil, or_false] at hq
    rcases hq with rfl | rfl | rfl
    · left
      have e : slotNameAs intInfo (some "mine".toList) (.error : Slot Int) = .ok (some "mine".toList) := by decide
      rw [show stored (Req.slot (.error : Slot Int)) = .error from rfl] at h
      rw [e] at h
      cases h; exact ⟨rfl, rfl⟩
    · right
      have e : slotNameAs intInfo (some "my_mse".toList) (.sqError : Slot Int) = .ok (some "my_mse".toList) := by decide
      rw [show stored (Req.rmse : Req Int) = .sqError from rfl] at h
      rw [e] at h
      cases h; exact ⟨rfl, rfl⟩
    · have e : slotNameAs intInfo none (.corr : Slot Int) = .ok none := by decide
      rw [show stored (Req.slot (.corr : Slot Int)) = .corr from rfl] at h
      rw [e] at h
      cases h
  refine ⟨?_, ?_⟩
  · rintro s s' n (h | h) (h' | h')
    · exact slotName_inj textOK_int h h'
    · rcases hown s' n h' with ⟨-, rfl⟩ | ⟨-, rfl⟩ <;> exact absurd rfl (slotName_not_m h)
    · rcases hown s n h with ⟨-, rfl⟩ | ⟨-, rfl⟩ <;> exact absurd rfl (slotName_not_m h')
    · rcases hown s n h with ⟨rfl, rfl⟩ | ⟨rfl, rfl⟩ <;> rcases hown s' _ h' with ⟨rfl, h2⟩ | ⟨rfl, h2⟩ <;>
        first | rfl | exact absurd h2 (by decide)
  · intro q hq
    simp only [ownCalls, List.mem_cons, List.not_mem_nil, or_false] at hq
    rcases hq with rfl | rfl | rfl <;> first | exact fun h => h.elim | exact fun _ => rfl

/-- The claim is false when a name is used for two results: `error(save_name='mine')` and then
`sq_error(save_name='mine')` gives the mean error 1/2 for the mean squared error, which is 5/2. -/
theorem C87_false : ∃ (o : Obj (DetX ℚ)) (w : World (PyVal ℚ)),
    construct detP noMids ⟨.none, .none, .path dirW, some true,
      ⟨⟨[2], [some 3, some 0], rfl⟩, ⟨[2], [some 1, some 1], rfl⟩⟩⟩ world0 = (.ok o, w) ∧
    let s := runN .determ intInfo detP noMids [.named (some "mine".toList) (.slot .error)] o w
    numOf (resultAs .determ intInfo detP noMids (some "mine".toList) (.slot .sqError) s.1 s.2) =
      some ([], [some (1 / 2)]) ∧
    ∀ u, numOf (resultAs .determ intInfo detP noMids (some "mine".toList) (.slot .sqError) (unsaved s.1) u) =
      some ([], [some (5 / 2)]) := by
  refine ⟨_, _, rfl, by decide +kernel, ?_⟩
  intro u
  rw [C87_unsaved .determ intInfo detP noMids (some "mine".toList) (.slot .sqError) (n := some "mine".toList)
    (n' := some "sq_error".toList) (by decide) (by decide),
    C43_which .determ intInfo _ noMids _ (.slot .sqError) rfl trivial u world0]
  decide +kernel

/-- three pairs for `corr` -/
def corrX : DetX ℚ := ⟨⟨[3], [some 1, some 2, some 4], rfl⟩, ⟨[3], [some 1, some 2, some 3], rfl⟩⟩

/-- It is also false for `corr` with a name: it is stored after bootstrapping, and `disable_boot` keeps the file.  The
later call still gives the bootstrapped array with its confidence bounds (three rows). -/
theorem C87_final_false : ∃ (o : Obj (DetX ℚ)) (w : World (PyVal ℚ)),
    construct detP noMids ⟨.none, .int 3, .path dirW, some true, corrX⟩ world0 = (.ok o, w) ∧
    let s := runN .determ intInfo detP noMids [.named (some "mine".toList) (.slot .corr), .plain .disableBoot] o w
    s.1.boot = .none ∧
    (numOf (resultAs .determ intInfo detP noMids (some "mine".toList) (.slot .corr) s.1 s.2)).map Prod.fst ≠
      (numOf (resultAs .determ intInfo detP noMids (some "mine".toList) (.slot .corr) (unsaved s.1) s.2)).map
        Prod.fst := by
  refine ⟨_, _, rfl, rfl, by decide +kernel⟩

end Props
