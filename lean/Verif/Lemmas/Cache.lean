import Verif.Model.Cache
import Mathlib.Data.List.Infix

/-! Helper lemmas about cached computations. -/

namespace Model
open Np

variable {V : Type}

/-- the results a computation can have when nothing is loaded, over all random outcomes -/
def poss : Prog V → Except Err V → Prop
  | .ret r', r => r = r'
  | .draw k, r => ∃ n, poss (k n) r
  | .call _ body k, r => (∃ e, r = .error e ∧ poss body (.error e)) ∨ ∃ v, poss body (.ok v) ∧ poss (k v) r

theorem load_none (name : Option Name) (w : World V) : load none name w = .ok none := by
  cases name <;> rfl

theorem save_none (name : Option Name) (v : V) (w : World V) : save none name v w = (.ok (), w) := by
  cases name <;> rfl

/-- without a working directory the world keeps its files -/
theorem run_none_fs (p : Prog V) (w : World V) :
    (p.run none w).2.fs = w.fs ∧ (p.run none w).2.trace = w.trace ∧ (p.run none w).2.seed = w.seed := by
  induction p generalizing w with
  | ret r => exact ⟨rfl, rfl, rfl⟩
  | draw k ih => exact ih _ _
  | call name body k ihb ihk =>
    simp only [Prog.run, load_none, save_none]
    have hb := ihb w
    cases hr : body.run none w with
    | mk r w1 =>
      rw [hr] at hb
      cases r with
      | error e => exact hb
      | ok v =>
        simp only
        obtain ⟨h1, h2, h3⟩ := ihk v w1
        exact ⟨h1.trans hb.1, h2.trans hb.2.1, h3.trans hb.2.2⟩

theorem poss_run_none (p : Prog V) (w : World V) : poss p (p.run none w).1 := by
  induction p generalizing w with
  | ret r => rfl
  | draw k ih => exact ⟨_, ih _ _⟩
  | call name body k ihb ihk =>
    simp only [Prog.run, load_none, save_none, poss]
    have hb := ihb w
    cases hr : body.run none w with
    | mk r w1 =>
      rw [hr] at hb
      cases r with
      | error e => exact Or.inl ⟨e, rfl, hb⟩
      | ok v => exact Or.inr ⟨v, hb, ihk v w1⟩

/-- the random numbers from position `pos` on start with `l` -/
def Supplies (w : World V) (l : List Nat) : Prop := ∀ i (h : i < l.length), w.seed (w.pos + i) = l[i]

theorem run_of_poss (p : Prog V) (r : Except Err V) (h : poss p r) :
    ∃ l : List Nat, ∀ w : World V, Supplies w l →
      p.run none w = (r, { w with pos := w.pos + l.length }) := by
  induction p generalizing r with
  | ret r' =>
    cases h
    exact ⟨[], fun w _ => rfl⟩
  | draw k ih =>
    obtain ⟨n, hn⟩ := h
    obtain ⟨l, hl⟩ := ih n r hn
    refine ⟨n :: l, fun w hw => ?_⟩
    have h0 : w.seed w.pos = n := hw 0 (by simp)
    simp only [Prog.run, h0]
    rw [hl]
    · simp only [List.length_cons, Prod.mk.injEq, World.mk.injEq, true_and, and_true]; omega
    · intro i hi
      have := hw (i + 1) (by simpa using hi)
      simp only [List.getElem_cons_succ] at this
      rw [← this]
      simp [Nat.add_comm, Nat.add_left_comm]
  | call name body k ihb ihk =>
    rcases h with ⟨e, rfl, he⟩ | ⟨v, hv, hk⟩
    · obtain ⟨l, hl⟩ := ihb _ he
      refine ⟨l, fun w hw => ?_⟩
      simp only [Prog.run, load_none, hl w hw]
    · obtain ⟨l, hl⟩ := ihb _ hv
      obtain ⟨m, hm⟩ := ihk v r hk
      refine ⟨l ++ m, fun w hw => ?_⟩
      have h1 : Supplies w l := fun i hi => by
        have := hw i (by rw [List.length_append]; omega)
        rw [this, List.getElem_append_left hi]
      simp only [Prog.run, load_none, save_none, hl w h1]
      rw [hm]
      · simp [Nat.add_assoc]
      · intro i hi
        have := hw (l.length + i) (by rw [List.length_append]; omega)
        simp only [Nat.add_assoc] at this ⊢
        rw [this, List.getElem_append_right (by omega)]
        simp

/-- the possible results are those of uncached runs -/
theorem poss_iff (p : Prog V) (r : Except Err V) : poss p r ↔ ∃ w, (p.run none w).1 = r := by
  constructor
  · intro h
    obtain ⟨l, hl⟩ := run_of_poss p r h
    refine ⟨⟨fun _ => none, fun i => l.getD i 0, 0, []⟩, ?_⟩
    rw [hl]
    intro i hi
    simp [hi]
  · rintro ⟨w, rfl⟩
    exact poss_run_none p w

/-- no random numbers are used -/
def Det : Prog V → Prop
  | .ret _ => True
  | .draw _ => False
  | .call _ body k => Det body ∧ ∀ v, Det (k v)

theorem poss_det {p : Prog V} (h : Det p) {r r' : Except Err V} (h1 : poss p r) (h2 : poss p r') : r = r' := by
  induction p generalizing r r' with
  | ret _ => cases h1; cases h2; rfl
  | draw _ _ => exact h.elim
  | call name body k ihb ihk =>
    obtain ⟨hb, hk⟩ := h
    rcases h1 with ⟨e, rfl, he⟩ | ⟨v, hv, hr⟩ <;> rcases h2 with ⟨e', rfl, he'⟩ | ⟨v', hv', hr'⟩
    · exact ihb hb he he'
    · exact absurd (ihb hb he hv') (by simp)
    · exact absurd (ihb hb hv he') (by simp)
    · have := ihb hb hv hv'
      cases this
      exact ihk v (hk v) hr hr'

/-- all saved results used by the computation have names in `S` -/
def AllIn (S : Name → Prop) : Prog V → Prop
  | .ret _ => True
  | .draw k => ∀ n, AllIn S (k n)
  | .call name body k => (∀ n, name = some n → S n) ∧ AllIn S body ∧ ∀ v, AllIn S (k v)

/-- every value that `p` may load or save under a name in `S` is what the name stands for, no more and no less -/
def Agree (S : Name → Prop) (Val : Name → V → Prop) : Prog V → Prop
  | .ret _ => True
  | .draw k => ∀ n, Agree S Val (k n)
  | .call name body k => (∀ n, name = some n → S n → AllIn S body ∧ ∀ v, Val n v ↔ poss body (.ok v)) ∧
      Agree S Val body ∧ ∀ v, Agree S Val (k v)

/-- all loadable files with names in `S` in the directories `D` hold what their name stands for -/
def GoodOn (S : Name → Prop) (Val : Name → V → Prop) (D : Path → Prop) (fs : FS V) : Prop :=
  ∀ d, D d → ∀ n v, S n → fs (filePath d n) = some (.file (.full v)) → Val n v

/-- `d` is a directory whose entries `<name>.pkl` can all be loaded; those in `S` hold what their name stands for -/
def CleanGood (S : Name → Prop) (Val : Name → V → Prop) (d : Path) (fs : FS V) : Prop :=
  fs d = some .dir ∧ ∀ n, fs (filePath d n) = none ∨
    ∃ v, fs (filePath d n) = some (.file (.full v)) ∧ (S n → Val n v)

theorem filePath_inj {d d' : Path} {n n' : Name} (h : filePath d n = filePath d' n') : d = d' ∧ n = n' := by
  unfold filePath at h
  have := List.append_inj' h rfl
  refine ⟨this.1, ?_⟩
  have h2 := this.2
  simp only [List.cons.injEq, and_true] at h2
  exact List.append_cancel_right h2

theorem filePath_ne (d : Path) (n : Name) : filePath d n ≠ d := by
  unfold filePath
  intro h
  have := congrArg List.length h
  simp at this

/-- what `save` does: nothing, or fail without effect, or write the file in two steps -/
theorem save_cases (wd : Option Path) (name : Option Name) (v : V) (w : World V) :
    (save wd name v w = (.ok (), w) ∧ (wd = none ∨ name = none)) ∨
    (∃ e, save wd name v w = (.error e, w)) ∨
    ∃ d n, wd = some d ∧ name = some n ∧ w.fs d = some .dir ∧
      save wd name v w = (.ok (), { w with
        fs := w.fs.set (filePath d n) (some (.file (.full v))),
        trace := w.trace ++ [w.fs.set (filePath d n) (some (.file .torn)),
          w.fs.set (filePath d n) (some (.file (.full v)))] }) := by
  cases wd with
  | none => left; exact ⟨save_none name v w, Or.inl rfl⟩
  | some d =>
    cases name with
    | none => left; exact ⟨rfl, Or.inr rfl⟩
    | some n =>
      right
      cases hd : w.fs d with
      | none => left; exact ⟨.generic, by simp [save, hd]⟩
      | some nd =>
        cases nd with
        | file c => left; exact ⟨.generic, by simp [save, hd]⟩
        | dir =>
          have key : ∀ fs : FS V, (fs.set (filePath d n) (some (.file .torn))).set (filePath d n)
              (some (.file (.full v))) = fs.set (filePath d n) (some (.file (.full v))) := by
            intro fs; funext q; unfold FS.set; split <;> rfl
          cases hp : w.fs (filePath d n) with
          | none =>
            right; refine ⟨d, n, rfl, rfl, hd, ?_⟩
            simp [save, hd, hp, World.eff, key]
          | some np =>
            cases np with
            | dir => left; exact ⟨.generic, by simp [save, hd, hp]⟩
            | file c =>
              right; refine ⟨d, n, rfl, rfl, hd, ?_⟩
              simp [save, hd, hp, World.eff, key]

theorem goodOn_set {S : Name → Prop} {Val : Name → V → Prop} {D : Path → Prop} {fs : FS V}
    (h : GoodOn S Val D fs) {d : Path}
    {n : Name} {c : Option (Node V)} (hc : ∀ v, S n → c = some (.file (.full v)) → Val n v) :
    GoodOn S Val D (fs.set (filePath d n) c) := by
  intro d' hd' n' v hS hv
  unfold FS.set at hv
  split at hv
  · rename_i heq
    obtain ⟨rfl, rfl⟩ := filePath_inj heq
    exact hc v hS hv
  · exact h d' hd' n' v hS hv

/-- a value returned from good files is possible, and the files stay good at every moment -/
theorem run_sound {S : Name → Prop} {Val : Name → V → Prop} {D : Path → Prop} {wd : Option Path}
    (hD : ∀ d, wd = some d → D d)
    (p : Prog V) (hA : Agree S Val p) (w : World V) (hg : GoodOn S Val D w.fs)
    (ht : ∀ fs ∈ w.trace, GoodOn S Val D fs) :
    (AllIn S p → ∀ v, (p.run wd w).1 = .ok v → poss p (.ok v)) ∧ GoodOn S Val D (p.run wd w).2.fs ∧
      ∀ fs ∈ (p.run wd w).2.trace, GoodOn S Val D fs := by
  induction p generalizing w with
  | ret r => exact ⟨fun _ v hv => hv.symm, hg, ht⟩
  | draw k ih =>
    obtain ⟨h1, h2, h3⟩ := ih (w.seed w.pos) (hA _) { w with pos := w.pos + 1 } hg ht
    exact ⟨fun hS v hv => ⟨_, h1 (hS _) v hv⟩, h2, h3⟩
  | call name body k ihb ihk =>
    obtain ⟨hA1, hA2, hA3⟩ := hA
    simp only [Prog.run]
    cases hl : load wd name w with
    | error e => exact ⟨fun _ v hv => by simp at hv, hg, ht⟩
    | ok o =>
      cases o with
      | some v =>
        simp only
        obtain ⟨h1, h2, h3⟩ := ihk v (hA3 v) w hg ht
        refine ⟨fun hS u hu => Or.inr ⟨v, ?_, h1 (hS.2.2 v) u hu⟩, h2, h3⟩
        -- the loaded value
        unfold load at hl
        split at hl
        · rename_i d n
          split at hl
          · cases hl
          · rename_i v' hfs
            cases hl
            exact ((hA1 n rfl (hS.1 n rfl)).2 v).1 (hg d (hD d rfl) n v (hS.1 n rfl) hfs)
          · cases hl
          · cases hl
        · cases hl
      | none =>
        simp only
        obtain ⟨b1, b2, b3⟩ := ihb hA2 w hg ht
        cases hr : body.run wd w with
        | mk r w1 =>
          rw [hr] at b1 b2 b3
          cases r with
          | error e => exact ⟨fun _ v hv => by simp at hv, b2, b3⟩
          | ok v =>
            simp only
            rcases save_cases wd name v w1 with ⟨hs, -⟩ | ⟨e, hs⟩ | ⟨d, n, hwd, hname, -, hs⟩
            · rw [hs]
              obtain ⟨h1, h2, h3⟩ := ihk v (hA3 v) w1 b2 b3
              exact ⟨fun hS u hu => Or.inr ⟨v, b1 hS.2.1 v rfl, h1 (hS.2.2 v) u hu⟩, h2, h3⟩
            · rw [hs]; exact ⟨fun _ v hv => by simp at hv, b2, b3⟩
            · rw [hs]
              simp only
              have hval : S n → Val n v := fun hn => by
                obtain ⟨h1, h2⟩ := hA1 n hname hn
                exact (h2 v).2 (b1 h1 v rfl)
              have hg2 : GoodOn S Val D (w1.fs.set (filePath d n) (some (.file (.full v)))) :=
                goodOn_set b2 (fun u hn hu => by cases hu; exact hval hn)
              have hg1 : GoodOn S Val D (w1.fs.set (filePath d n) (some (.file .torn))) :=
                goodOn_set b2 (fun u _ hu => by cases hu)
              obtain ⟨h1, h2, h3⟩ := ihk v (hA3 v) { w1 with
                fs := w1.fs.set (filePath d n) (some (.file (.full v))),
                trace := w1.trace ++ [w1.fs.set (filePath d n) (some (.file .torn)),
                  w1.fs.set (filePath d n) (some (.file (.full v)))] } hg2 (by
                intro fs hfs
                rcases List.mem_append.1 hfs with h | h
                · exact b3 fs h
                · simp only [List.mem_cons, List.not_mem_nil, or_false] at h
                  rcases h with rfl | rfl
                  · exact hg1
                  · exact hg2)
              exact ⟨fun hS u hu => Or.inr ⟨v, b1 hS.2.1 v rfl, h1 (hS.2.2 v) u hu⟩, h2, h3⟩

/-- in a clean working directory every result (also an exception) is possible -/
theorem run_clean {S : Name → Prop} {Val : Name → V → Prop} {wd : Option Path}
    (p : Prog V) (hA : Agree S Val p) (w : World V) (hg : ∀ d, wd = some d → CleanGood S Val d w.fs) :
    (AllIn S p → poss p (p.run wd w).1) ∧ ∀ d, wd = some d → CleanGood S Val d (p.run wd w).2.fs := by
  induction p generalizing w with
  | ret r => exact ⟨fun _ => rfl, hg⟩
  | draw k ih =>
    obtain ⟨h1, h2⟩ := ih (w.seed w.pos) (hA _) { w with pos := w.pos + 1 } hg
    exact ⟨fun hS => ⟨_, h1 (hS _)⟩, h2⟩
  | call name body k ihb ihk =>
    obtain ⟨hA1, hA2, hA3⟩ := hA
    simp only [Prog.run]
    cases hl : load wd name w with
    | error e =>
      exfalso
      unfold load at hl
      split at hl
      · rename_i d n
        rcases (hg d rfl).2 n with h | ⟨v, h, -⟩
        · simp [h] at hl
        · simp [h] at hl
      · cases hl
    | ok o =>
      cases o with
      | some v =>
        simp only
        obtain ⟨h1, h2⟩ := ihk v (hA3 v) w hg
        refine ⟨fun hS => Or.inr ⟨v, ?_, h1 (hS.2.2 v)⟩, h2⟩
        unfold load at hl
        split at hl
        · rename_i d n
          rcases (hg d rfl).2 n with h | ⟨u, h, hu⟩
          · simp [h] at hl
          · simp only [h, Except.ok.injEq, Option.some.injEq] at hl
            subst hl
            exact ((hA1 n rfl (hS.1 n rfl)).2 u).1 (hu (hS.1 n rfl))
        · cases hl
      | none =>
        simp only
        obtain ⟨b1, b2⟩ := ihb hA2 w hg
        cases hr : body.run wd w with
        | mk r w1 =>
          rw [hr] at b1 b2
          cases r with
          | error e => exact ⟨fun hS => Or.inl ⟨e, rfl, b1 hS.2.1⟩, b2⟩
          | ok v =>
            simp only
            simp only at b1 b2
            rcases save_cases wd name v w1 with ⟨hs, -⟩ | ⟨e, hs⟩ | ⟨d, n, hwd, hname, -, hs⟩
            · rw [hs]
              obtain ⟨h1, h2⟩ := ihk v (hA3 v) w1 b2
              exact ⟨fun hS => Or.inr ⟨v, b1 hS.2.1, h1 (hS.2.2 v)⟩, h2⟩
            · exfalso
              unfold save at hs
              split at hs
              · rename_i d n
                obtain ⟨hd, hn⟩ := b2 d rfl
                rcases hn n with h | ⟨u, h, -⟩
                · simp [hd, h] at hs
                · simp [hd, h] at hs
              · simp at hs
            · rw [hs]
              simp only
              have hval : S n → Val n v := fun hn => by
                obtain ⟨h1, h2⟩ := hA1 n hname hn
                exact (h2 v).2 (b1 h1)
              subst hwd
              obtain ⟨hd, hn⟩ := b2 d rfl
              obtain ⟨h1, h2⟩ := ihk v (hA3 v) { w1 with
                fs := w1.fs.set (filePath d n) (some (.file (.full v))),
                trace := w1.trace ++ [w1.fs.set (filePath d n) (some (.file .torn)),
                  w1.fs.set (filePath d n) (some (.file (.full v)))] } (by
                intro d' hd'
                cases hd'
                refine ⟨?_, fun n' => ?_⟩
                · simp only [FS.set]; rw [if_neg (filePath_ne d n).symm]; exact hd
                · simp only [FS.set]
                  by_cases hnn : n' = n
                  · right; subst hnn; exact ⟨v, by rw [if_pos rfl], hval⟩
                  · rw [if_neg (fun h => hnn (filePath_inj h).2)]
                    exact hn n')
              exact ⟨fun hS => Or.inr ⟨v, b1 hS.2.1, h1 (hS.2.2 v)⟩, h2⟩

/-- a metric call only touches files `<name>.pkl` in the working directory -/
theorem run_frame (wd : Option Path) (p : Prog V) (w : World V) (q : Path)
    (hq : ∀ d n, wd = some d → q ≠ filePath d n) :
    (p.run wd w).2.fs q = w.fs q ∧ ∀ fs ∈ (p.run wd w).2.trace, fs ∈ w.trace ∨ fs q = w.fs q := by
  induction p generalizing w with
  | ret r => exact ⟨rfl, fun fs h => Or.inl h⟩
  | draw k ih => exact ih _ { w with pos := w.pos + 1 }
  | call name body k ihb ihk =>
    simp only [Prog.run]
    cases hl : load wd name w with
    | error e => exact ⟨rfl, fun fs h => Or.inl h⟩
    | ok o =>
      cases o with
      | some v => exact ihk v w
      | none =>
        simp only
        have hb := ihb w
        cases hr : body.run wd w with
        | mk r w1 =>
          rw [hr] at hb
          cases r with
          | error e => exact hb
          | ok v =>
            simp only
            rcases save_cases wd name v w1 with ⟨hs, -⟩ | ⟨e, hs⟩ | ⟨d, n, hwd, hname, -, hs⟩
            · rw [hs]
              obtain ⟨h1, h2⟩ := ihk v w1
              refine ⟨h1.trans hb.1, fun fs hfs => ?_⟩
              rcases h2 fs hfs with h | h
              · exact hb.2 fs h
              · right; exact h.trans hb.1
            · rw [hs]; exact hb
            · rw [hs]
              simp only
              have hset : ∀ c : Option (Node V), (w1.fs.set (filePath d n) c) q = w1.fs q := by
                intro c
                unfold FS.set
                rw [if_neg (hq d n hwd)]
              obtain ⟨h1, h2⟩ := ihk v { w1 with
                fs := w1.fs.set (filePath d n) (some (.file (.full v))),
                trace := w1.trace ++ [w1.fs.set (filePath d n) (some (.file .torn)),
                  w1.fs.set (filePath d n) (some (.file (.full v)))] }
              simp only [hset] at h1 h2
              refine ⟨h1.trans hb.1, fun fs hfs => ?_⟩
              rcases h2 fs hfs with h | h
              · rcases List.mem_append.1 h with h | h
                · exact hb.2 fs h
                · right
                  simp only [List.mem_cons, List.not_mem_nil, or_false] at h
                  rcases h with rfl | rfl
                  · rw [hset]; exact hb.1
                  · rw [hset]; exact hb.1
              · right; exact h.trans hb.1

theorem agree_callName {S : Name → Prop} {Val : Name → V → Prop} {name : Except Err (Option Name)} {b : Prog V}
    {k : V → Prog V} (h1 : ∀ n, name = .ok (some n) → S n → AllIn S b ∧ ∀ v, Val n v ↔ poss b (.ok v))
    (h2 : Agree S Val b) (h3 : ∀ v, Agree S Val (k v)) : Agree S Val (.callName name b k) := by
  cases name with
  | error e => exact trivial
  | ok o => exact ⟨fun n hn => h1 n (by rw [hn]), h2, h3⟩

theorem allIn_callName {S : Name → Prop} {name : Except Err (Option Name)} {b : Prog V}
    {k : V → Prog V} (h1 : ∀ n, name = .ok (some n) → S n)
    (h2 : AllIn S b) (h3 : ∀ v, AllIn S (k v)) : AllIn S (.callName name b k) := by
  cases name with
  | error e => exact trivial
  | ok o => exact ⟨fun n hn => h1 n (by rw [hn]), h2, h3⟩

theorem det_callName {name : Except Err (Option Name)} {b : Prog V} {k : V → Prog V}
    (h2 : Det b) (h3 : ∀ v, Det (k v)) : Det (.callName name b k) := by
  cases name with
  | error e => exact trivial
  | ok o => exact ⟨h2, h3⟩

theorem agree_callAll {S : Name → Prop} {Val : Name → V → Prop} (l : List (Except Err (Option Name) × Prog V))
    (k : List V → Prog V)
    (hl : ∀ q ∈ l, (∀ n, q.1 = .ok (some n) → S n → AllIn S q.2 ∧ ∀ v, Val n v ↔ poss q.2 (.ok v)) ∧
      Agree S Val q.2)
    (hk : ∀ vs, Agree S Val (k vs)) : Agree S Val (Prog.callAll l k) := by
  induction l generalizing k with
  | nil => exact hk []
  | cons q l ih =>
    obtain ⟨n, b⟩ := q
    obtain ⟨h1, h2⟩ := hl (n, b) (by simp)
    exact agree_callName h1 h2 fun v => ih _ (fun q hq => hl q (by simp [hq])) fun vs => hk _

theorem allIn_callAll {S : Name → Prop} (l : List (Except Err (Option Name) × Prog V)) (k : List V → Prog V)
    (hl : ∀ q ∈ l, (∀ n, q.1 = .ok (some n) → S n) ∧ AllIn S q.2)
    (hk : ∀ vs, AllIn S (k vs)) : AllIn S (Prog.callAll l k) := by
  induction l generalizing k with
  | nil => exact hk []
  | cons q l ih =>
    obtain ⟨n, b⟩ := q
    obtain ⟨h1, h2⟩ := hl (n, b) (by simp)
    exact allIn_callName h1 h2 fun v => ih _ (fun q hq => hl q (by simp [hq])) fun vs => hk _

theorem det_callAll (l : List (Except Err (Option Name) × Prog V)) (k : List V → Prog V)
    (hl : ∀ q ∈ l, Det q.2) (hk : ∀ vs, Det (k vs)) : Det (Prog.callAll l k) := by
  induction l generalizing k with
  | nil => exact hk []
  | cons q l ih =>
    obtain ⟨n, b⟩ := q
    exact det_callName (hl (n, b) (by simp)) fun v => ih _ (fun q hq => hl q (by simp [hq])) fun vs => hk _

/-! ### preparing the directory -/

theorem makeDirs_frame (ps : List Path) (w : World V) (q : Path) (hq : q ∉ ps) :
    (makeDirs ps w).2.fs q = w.fs q ∧ ∀ fs ∈ (makeDirs ps w).2.trace, fs ∈ w.trace ∨ fs q = w.fs q := by
  induction ps generalizing w with
  | nil => exact ⟨rfl, fun fs h => Or.inl h⟩
  | cons p ps ih =>
    simp only [List.mem_cons, not_or] at hq
    simp only [makeDirs]
    split
    · exact ih w hq.2
    · exact ⟨rfl, fun fs h => Or.inl h⟩
    · obtain ⟨h1, h2⟩ := ih (w.eff (w.fs.set p (some .dir))) hq.2
      have hset : (w.fs.set p (some .dir)) q = w.fs q := by unfold FS.set; rw [if_neg hq.1]
      simp only [World.eff, hset] at h1 h2
      refine ⟨h1, fun fs hfs => ?_⟩
      rcases h2 fs hfs with h | h
      · rcases List.mem_append.1 h with h | h
        · exact Or.inl h
        · right; simp only [List.mem_singleton] at h; subst h; exact hset
      · exact Or.inr h

/-- nothing existing is changed, and what is new is a directory -/
theorem makeDirs_keeps (ps : List Path) (w : World V) (q : Path) (n : Node V) (h : w.fs q = some n) :
    (makeDirs ps w).2.fs q = some n := by
  induction ps generalizing w with
  | nil => exact h
  | cons p ps ih =>
    simp only [makeDirs]
    split
    · exact ih w h
    · exact h
    · rename_i hp
      apply ih
      simp only [World.eff, FS.set]
      split
      · rename_i heq; subst heq; rw [hp] at h; cases h
      · exact h

theorem makeDirs_new (ps : List Path) (w : World V) (q : Path) (h : w.fs q = none) :
    (makeDirs ps w).2.fs q = none ∨ (makeDirs ps w).2.fs q = some .dir := by
  induction ps generalizing w with
  | nil => exact Or.inl h
  | cons p ps ih =>
    simp only [makeDirs]
    split
    · exact ih w h
    · exact Or.inl h
    · by_cases hqp : q = p
      · right
        apply makeDirs_keeps
        simp [World.eff, FS.set, hqp]
      · apply ih
        simp only [World.eff, FS.set, if_neg hqp]; exact h

theorem makeDirs_ok (ps : List Path) (w : World V) (h : (makeDirs ps w).1 = .ok ()) :
    ∀ p ∈ ps, (makeDirs ps w).2.fs p = some .dir := by
  induction ps generalizing w with
  | nil => simp
  | cons p ps ih =>
    simp only [makeDirs] at h ⊢
    split at h
    · rename_i hp
      intro q hq
      rcases List.mem_cons.1 hq with rfl | hq
      · exact makeDirs_keeps _ _ _ _ hp
      · exact ih w h q hq
    · cases h
    · rename_i hp
      intro q hq
      rcases List.mem_cons.1 hq with rfl | hq
      · apply makeDirs_keeps
        simp [World.eff, FS.set]
      · exact ih _ h q hq

theorem mem_ancestors {d p : Path} (h : p ∈ ancestors d) : p <+: d := by
  unfold ancestors at h
  have := List.mem_of_mem_tail h
  exact (List.mem_inits _ _).1 this

theorem self_mem_ancestors {d : Path} (h : d ≠ []) : d ∈ ancestors d := by
  cases d with
  | nil => exact absurd rfl h
  | cons a l => simp [ancestors, List.mem_inits]

theorem filePath_not_ancestor (d : Path) (n : Name) : filePath d n ∉ ancestors d := by
  intro h
  have := (mem_ancestors h).length_le
  simp [filePath] at this

/-- after a successful preparation the working directory exists, and with `scratch` it has no `.pkl` entries -/
theorem prepareDir_ok {mids : FS V → Path → List (FS V)} {scratch : Bool} {d : Path} (hd : d ≠ []) {w w' : World V}
    (h : prepareDir mids scratch d w = (.ok (), w')) :
    (scratch = true → w'.fs d = some .dir ∧ ∀ q, d <+: q → q ≠ d → w'.fs q = none) ∨
    (w.fs d = none ∧ w'.fs d = some .dir ∧ ∀ q, q ∉ ancestors d → w'.fs q = w.fs q) := by
  unfold prepareDir at h
  by_cases he : (w.fs d).isSome
  · rw [if_pos he] at h
    left
    intro hs
    rw [if_pos hs] at h
    cases hr : rmTree mids d w with
    | mk r w1 =>
      rw [hr] at h
      cases r with
      | error e => simp at h
      | ok u =>
        simp only at h
        have hw1 : w1.fs = removeTree w.fs d := by
          unfold rmTree at hr
          split at hr
          · injection hr with _ h2
            rw [← h2]
          · cases hr
          · cases hr
        have h1 : (makeDirs (ancestors d) w1).1 = .ok () := by rw [h]
        have h2 := makeDirs_ok _ _ h1
        rw [h] at h2
        refine ⟨h2 d (self_mem_ancestors hd), fun q hq hne => ?_⟩
        have hna : q ∉ ancestors d := by
          intro hq'
          exact hne (List.IsPrefix.eq_of_length_le hq (mem_ancestors hq').length_le).symm
        have h3 := (makeDirs_frame (ancestors d) w1 q hna).1
        rw [h] at h3
        rw [h3, hw1]
        unfold removeTree
        rw [if_pos hq]
  · rw [if_neg he] at h
    right
    have hnone : w.fs d = none := by simpa using he
    have h1 : (makeDirs (ancestors d) w).1 = .ok () := by rw [h]
    have h2 := makeDirs_ok _ _ h1
    rw [h] at h2
    refine ⟨hnone, h2 d (self_mem_ancestors hd), fun q hq => ?_⟩
    have h3 := (makeDirs_frame (ancestors d) w q hq).1
    rw [h] at h3
    exact h3

end Model
