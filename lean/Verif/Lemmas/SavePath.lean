import Verif.Model.SavePath
import Verif.Spec.SavePath

/-! Path resolution. -/

set_option linter.unusedSectionVars false

namespace Lemmas
open Np Spec Model

variable {V : Type}

theorem comps_ne (t : List Char) : comps t ≠ [] := by
  cases t with
  | nil => simp [comps]
  | cons c t =>
    unfold comps
    split
    · simp
    · split <;> simp

theorem comps_append (a b : List Char) : comps (a ++ '/' :: b) = comps a ++ comps b := by
  induction a with
  | nil => simp [comps]
  | cons c a ih =>
    rw [List.cons_append, comps, comps, ih]
    by_cases h : c = '/'
    · simp [h]
    · simp only [h, ↓reduceIte]
      cases hc : comps a with
      | nil => exact absurd hc (comps_ne a)
      | cons x xs => rfl

theorem comps_plain {n : List Char} (h : '/' ∉ n) : comps n = [n] := by
  induction n with
  | nil => rfl
  | cons c n ih =>
    rw [List.mem_cons, not_or] at h
    rw [comps, if_neg (fun e => h.1 e.symm), ih h.2]

/-- the components in the terms of the specification -/
theorem comps_split (t : List Char) : comps t = t.splitOnP (· = '/') := by
  induction t with
  | nil => rfl
  | cons c t ih =>
    rw [comps, List.splitOnP_cons_eq_if_modifyHead, ih]
    by_cases h : c = '/'
    · simp [h]
    · simp only [h, ↓reduceIte, decide_false, Bool.false_eq_true]
      cases hc : List.splitOnP (fun x => decide (x = '/')) t with
      | nil => exact absurd hc (List.splitOnP_ne_nil _ _)
      | cons x xs => rfl

theorem walk_append (fs : FS V) (cur : Path) (a b : List Name) :
    walk fs cur (a ++ b) = (walk fs cur a).bind fun p => walk fs p b := by
  induction a generalizing cur with
  | nil => rfl
  | cons c a ih =>
    rw [List.cons_append, walk, walk]
    cases nodeAt fs cur with
    | none => rfl
    | some n => cases n with
      | dir => exact ih _
      | file c => rfl

/-- a relative name is looked up from where the working directory leads -/
theorem resolve_join (fs : FS V) (cwd : Path) {t b : List Char} (ht : t ≠ []) (hb : b.head? ≠ some '/') :
    resolve fs cwd (joinPath t b) = (resolve fs cwd t).bind fun d => walk fs d (comps b) := by
  have hh : (joinPath t b).head? = t.head? := by
    unfold joinPath
    rw [if_neg hb]
    cases t with
    | nil => exact absurd rfl ht
    | cons c t => split <;> rfl
  unfold resolve
  rw [hh]
  generalize (if t.head? = some '/' then [] else cwd) = s
  unfold joinPath
  rw [if_neg hb]
  by_cases hl : t = [] ∨ t.getLast? = some '/'
  · rw [if_pos hl]
    have hl' := hl.resolve_left ht
    obtain ⟨t', rfl⟩ := List.getLast?_eq_some_iff.1 hl'
    rw [List.append_assoc, List.singleton_append, comps_append, comps_append, walk_append, walk_append]
    have : comps [] = [[]] := rfl
    rw [this]
    cases walk fs s (comps t') with
    | error e => rfl
    | ok p =>
      simp only [Except.bind]
      obtain ⟨c, cs, hc⟩ := List.exists_cons_of_ne_nil (comps_ne b)
      rw [hc, walk, walk]
      cases hn : nodeAt fs p with
      | none => rfl
      | some n => cases n with
        | dir => simp [walk, stepPath, hn]
        | file c => rfl
  · rw [if_neg hl, comps_append, walk_append]

theorem resolve_abs (fs : FS V) (cwd : Path) (t : List Char) {b : List Char} (hb : b.head? = some '/') :
    resolve fs cwd (joinPath t b) = walk fs [] (comps b) := by
  unfold joinPath resolve
  rw [if_pos hb, if_pos hb]

/-- resolution sees the directories only -/
theorem nodeAt_dir {fs fs' : FS V} (h : ∀ q, fs q = some .dir → fs' q = some .dir) {p : Path} (hp : nodeAt fs p = some .dir) :
    nodeAt fs' p = some .dir := by
  unfold nodeAt at hp ⊢
  split at hp
  · rename_i e; rw [if_pos e]
  · rename_i e; rw [if_neg e]; exact h p hp

theorem walk_mono {fs fs' : FS V} (h : ∀ q, fs q = some .dir → fs' q = some .dir) {cs : List Name} {cur p : Path}
    (hp : walk fs cur cs = .ok p) : walk fs' cur cs = .ok p := by
  induction cs generalizing cur with
  | nil => exact hp
  | cons c cs ih =>
    rw [walk] at hp ⊢
    cases hn : nodeAt fs cur with
    | none => rw [hn] at hp; cases hp
    | some n => cases n with
      | file c => rw [hn] at hp; cases hp
      | dir => rw [hn] at hp; rw [nodeAt_dir h hn]; exact ih hp

/-- the same directories -/
def SameDirs (fs fs' : FS V) : Prop := ∀ q, fs q = some .dir ↔ fs' q = some .dir

theorem SameDirs.resolve {fs fs' : FS V} (h : SameDirs fs fs') (cwd : Path) (t : List Char) {p : Path} :
    resolve fs cwd t = .ok p ↔ resolve fs' cwd t = .ok p :=
  ⟨walk_mono fun q => (h q).1, walk_mono fun q => (h q).2⟩

/-- the last component is a file name: it is found in a directory -/
theorem walk_last {fs : FS V} {cs : List Name} {c : Name} {cur p : Path} (h1 : c ≠ []) (h2 : c ≠ ['.']) (h3 : c ≠ ['.', '.'])
    (hp : walk fs cur (cs ++ [c]) = .ok p) : ∃ d, walk fs cur cs = .ok d ∧ nodeAt fs d = some .dir ∧ p = d ++ [c] := by
  rw [walk_append] at hp
  cases hw : walk fs cur cs with
  | error e => rw [hw] at hp; cases hp
  | ok d =>
    rw [hw] at hp
    simp only [Except.bind, walk] at hp
    refine ⟨d, rfl, ?_⟩
    cases hn : nodeAt fs d with
    | none => rw [hn] at hp; cases hp
    | some n => cases n with
      | file c => rw [hn] at hp; cases hp
      | dir =>
        rw [hn] at hp
        simp only [stepPath, h1, h2, h3, or_self, if_false, Except.ok.injEq] at hp
        exact ⟨rfl, hp.symm⟩

theorem comps_both (n : List Char) : ∃ cs m, comps n = cs ++ [m] ∧ comps (n ++ ".pkl".toList) = cs ++ [m ++ ".pkl".toList] := by
  induction n with
  | nil => exact ⟨[], [], rfl, by decide⟩
  | cons c n ih =>
    obtain ⟨cs, m, h', h⟩ := ih
    rw [List.cons_append, comps, comps, h, h']
    by_cases hc : c = '/'
    · exact ⟨[] :: cs, m, by simp [hc], by simp [hc]⟩
    · simp only [hc, ↓reduceIte]
      cases cs with
      | nil => exact ⟨[], c :: m, rfl, rfl⟩
      | cons x xs => exact ⟨(c :: x) :: xs, m, rfl, rfl⟩

theorem comps_pkl (n : List Char) : ∃ cs m, comps (n ++ ".pkl".toList) = cs ++ [m ++ ".pkl".toList] := by
  obtain ⟨cs, m, -, h⟩ := comps_both n
  exact ⟨cs, m, h⟩

theorem pkl_ne (m : List Char) : m ++ ".pkl".toList ≠ [] ∧ m ++ ".pkl".toList ≠ ['.'] ∧ m ++ ".pkl".toList ≠ ['.', '.'] := by
  refine ⟨fun h => ?_, fun h => ?_, fun h => ?_⟩ <;>
  · have := congrArg List.length h
    simp at this

/-- a resolved save name is a file `….pkl` in a directory -/
theorem resolve_pkl {fs : FS V} {cwd : Path} {t : List Char} (ht : t ≠ []) {n : Name} {p : Path}
    (h : resolve fs cwd (joinPath t (n ++ ".pkl".toList)) = .ok p) :
    ∃ d m, p = d ++ [m ++ ".pkl".toList] ∧ (d = [] ∨ fs d = some .dir) := by
  obtain ⟨cs, m, hc⟩ := comps_pkl n
  obtain ⟨h1, h2, h3⟩ := pkl_ne m
  have fin : ∀ {cur : Path}, walk fs cur (comps (n ++ ".pkl".toList)) = .ok p →
      ∃ d m, p = d ++ [m ++ ".pkl".toList] ∧ (d = [] ∨ fs d = some .dir) := by
    intro cur hw
    rw [hc] at hw
    obtain ⟨d, -, e1, e2⟩ := walk_last h1 h2 h3 hw
    refine ⟨d, m, e2, ?_⟩
    unfold nodeAt at e1
    split at e1
    · rename_i e; exact .inl e
    · exact .inr e1
  by_cases hb : (n ++ ".pkl".toList).head? = some '/'
  · rw [resolve_abs _ _ _ hb] at h
    exact fin h
  · rw [resolve_join _ _ ht hb] at h
    cases hr : resolve fs cwd t with
    | error e => rw [hr] at h; cases h
    | ok d => rw [hr] at h; exact fin h

/-! ### running -/

/-- what a run does to the files -/
structure Adds (Q : Path → Prop) (fs fs' : FS V) : Prop where
  dirs : SameDirs fs fs'
  only : OnlyAdds fs fs'
  where_ : ∀ q, fs q = none → fs' q ≠ none → Q q

theorem Adds.refl (Q : Path → Prop) (fs : FS V) : Adds Q fs fs :=
  ⟨fun _ => Iff.rfl, ⟨fun _ _ h => h, fun _ _ h h' => by rw [h] at h'; cases h'⟩, fun _ h h' => absurd h h'⟩

theorem Adds.trans {Q : Path → Prop} {f g h : FS V} (h1 : Adds Q f g) (h2 : Adds Q g h) : Adds Q f h := by
  refine ⟨fun q => (h1.dirs q).trans (h2.dirs q), ⟨fun q n hn => h2.only.kept q n (h1.only.kept q n hn), ?_⟩, ?_⟩
  · intro q n hq hn
    cases hg : g q with
    | some m =>
      have := h2.only.kept q m hg
      rw [hn] at this
      cases this
      exact h1.only.added q n hq hg
    | none =>
      obtain ⟨a, d, m, e1, e2⟩ := h2.only.added q n hg hn
      exact ⟨a, d, m, e1, e2.imp id fun e => (h1.dirs d).2 e⟩
  · intro q hq hn
    cases hg : g q with
    | some m => exact h1.where_ q hq (by rw [hg]; simp)
    | none => exact h2.where_ q hg hn

theorem Adds.set {Q : Path → Prop} {f g : FS V} (h1 : Adds Q f g) {p : Path} (hp : f p = none) (hQ : Q p) (v : V)
    (hd : ∃ d m, p = d ++ [m ++ ".pkl".toList] ∧ (d = [] ∨ f d = some .dir)) (c : Option (Node V)) :
    Adds Q f ((g.set p c).set p (some (.file (.full v)))) := by
  have e : (g.set p c).set p (some (.file (.full v))) = g.set p (some (.file (.full v))) := by
    funext q
    unfold FS.set
    split <;> rfl
  rw [e]
  have hnd : g p ≠ some .dir := fun h => by have := (h1.dirs p).2 h; rw [hp] at this; cases this
  refine ⟨fun q => ?_, ⟨fun q n hn => ?_, fun q n hq hn => ?_⟩, fun q hq hn => ?_⟩
  · unfold FS.set
    by_cases hqp : q = p
    · subst hqp; simp [hp]
    · rw [if_neg hqp]; exact h1.dirs q
  · unfold FS.set
    by_cases hqp : q = p
    · subst hqp; rw [hp] at hn; cases hn
    · rw [if_neg hqp]; exact h1.only.kept q n hn
  · unfold FS.set at hn
    by_cases hqp : q = p
    · subst hqp
      rw [if_pos rfl] at hn
      cases hn
      exact ⟨⟨v, rfl⟩, hd⟩
    · rw [if_neg hqp] at hn
      exact h1.only.added q n hq hn
  · unfold FS.set at hn
    by_cases hqp : q = p
    · subst hqp; exact hQ
    · rw [if_neg hqp] at hn
      exact h1.where_ q hq hn

/-- a name is looked up within `Q` -/
def LeadsTo (Q : Path → Prop) (cwd : Path) (t : List Char) (fs : FS V) (n : Name) : Prop :=
  ∀ p, resolve fs cwd (joinPath t (n ++ ".pkl".toList)) = .ok p → Q p

theorem runS_adds {Q : Path → Prop} (cwd : Path) (c : Char) (t : List Char) (prog : Prog V) : ∀ (w : World V),
    NamesIn (LeadsTo Q cwd (c :: t) w.fs) prog → Adds Q w.fs (prog.runS cwd (some (c :: t)) w).2.fs := by
  induction prog with
  | ret r => intro w _; exact Adds.refl _ _
  | draw k ih =>
    intro w h
    rw [Prog.runS]
    exact ih _ { w with pos := w.pos + 1 } (h _)
  | call name body k ihb ihk =>
    intro w h
    obtain ⟨hn, hb, hk⟩ := h
    rw [Prog.runS]
    -- the names lead to the same places later
    have later : ∀ {fs' : FS V}, SameDirs w.fs fs' → ∀ v, NamesIn (LeadsTo Q cwd (c :: t) fs') (k v) := by
      intro fs' hs v
      have : (LeadsTo Q cwd (c :: t) fs') = LeadsTo Q cwd (c :: t) w.fs := by
        funext n
        refine propext ⟨fun g p hp => g p ((hs.resolve _ _).1 hp), fun g p hp => g p ((hs.resolve _ _).2 hp)⟩
      rw [this]
      exact hk v
    have hbody := ihb w hb
    cases hl : loadS cwd (some (c :: t)) name w with
    | error e => exact Adds.refl _ _
    | ok r =>
      cases r with
      | some v => exact ihk v w (hk v)
      | none =>
        cases hr : body.runS cwd (some (c :: t)) w with
        | mk res w1 =>
          rw [hr] at hbody
          cases res with
          | error e => exact hbody
          | ok v =>
            dsimp only at hbody ⊢
            cases name with
            | none =>
              simp only [saveS]
              exact hbody.trans (ihk v w1 (later hbody.dirs v))
            | some n =>
              simp only [saveS]
              cases hres : resolve w1.fs cwd (joinPath (c :: t) (n ++ ".pkl".toList)) with
              | error e => exact hbody
              | ok p =>
                have hp := (hbody.dirs.resolve _ _).2 hres
                have hnone : w.fs p = none := by
                  simp only [loadS, hp] at hl
                  cases hx : w.fs p with
                  | none => rfl
                  | some nd =>
                    rw [hx] at hl
                    cases nd with
                    | dir => simp at hl
                    | file ct => cases ct <;> simp at hl
                have hset := hbody.set hnone (hn n rfl p hp) v (resolve_pkl (by simp) hp) (some (.file .torn))
                have hw1 : w1.fs p ≠ some .dir := fun hd => by
                  have := (hbody.dirs p).2 hd
                  rw [hnone] at this; cases this
                dsimp only
                have goal : ∀ x : Except Err Unit × World V, x = (Except.ok (), (w1.eff (w1.fs.set p (some (.file .torn)))).eff
                    ((w1.eff (w1.fs.set p (some (.file .torn)))).fs.set p (some (.file (.full v))))) →
                    Adds Q w.fs (match x with
                      | (.error e, w2) => ((.error e : Except Err V), w2)
                      | (.ok _, w2) => (k v).runS cwd (some (c :: t)) w2).2.fs := by
                  rintro x rfl
                  exact hset.trans (ihk v ((w1.eff (w1.fs.set p (some (.file .torn)))).eff
                    ((w1.eff (w1.fs.set p (some (.file .torn)))).fs.set p (some (.file (.full v))))) (later hset.dirs v))
                refine goal _ ?_
                cases hx : w1.fs p with
                | none => rfl
                | some nd =>
                  cases nd with
                  | dir => exact absurd hx hw1
                  | file ct => rfl

/-- names that stay inside lead to places inside -/
theorem walk_inner {fs : FS V} {cs : List Name} (h : ['.', '.'] ∉ cs) {cur p : Path} (hp : walk fs cur cs = .ok p) :
    p = cur ++ cs.filter fun c => c ≠ [] ∧ c ≠ ['.'] := by
  induction cs generalizing cur with
  | nil => cases hp; simp
  | cons c cs ih =>
    rw [List.mem_cons, not_or] at h
    rw [walk] at hp
    cases hn : nodeAt fs cur with
    | none => rw [hn] at hp; cases hp
    | some n => cases n with
      | file c => rw [hn] at hp; cases hp
      | dir =>
        rw [hn] at hp
        have := ih h.2 hp
        rw [this, stepPath, if_neg (c := c = ['.', '.']) (fun e => h.1 e.symm)]
        by_cases h1 : c = [] ∨ c = ['.']
        · rw [if_pos h1, List.filter_cons_of_neg]
          rcases h1 with rfl | rfl <;> simp
        · rw [not_or] at h1
          rw [if_neg (by rw [not_or]; exact h1), List.filter_cons_of_pos (by simp [h1.1, h1.2])]
          simp

theorem dots_pkl {n : List Char} (h : ['.', '.'] ∉ comps n) : ['.', '.'] ∉ comps (n ++ ".pkl".toList) := by
  obtain ⟨cs, m, h1, h2⟩ := comps_both n
  rw [h1] at h
  rw [h2]
  simp only [List.mem_append, List.mem_singleton, not_or] at h ⊢
  exact ⟨h.1, fun e => (pkl_ne m).2.2 e.symm⟩

theorem head_pkl {n : List Char} (h : n.head? ≠ some '/') : (n ++ ".pkl".toList).head? ≠ some '/' := by
  cases n with
  | nil => decide
  | cons c n => exact h

/-- where a name that stays inside leads -/
theorem resolve_inner {fs : FS V} {cwd d : Path} {t : List Char} (ht : t ≠ []) (hd : resolve fs cwd t = .ok d) {n : Name}
    (hn : Inner n) {p : Path} (h : resolve fs cwd (joinPath t (n ++ ".pkl".toList)) = .ok p) :
    p = d ++ parts (n ++ ".pkl".toList) := by
  obtain ⟨h1, h2⟩ := hn
  rw [← comps_split] at h2
  rw [resolve_join _ _ ht (head_pkl h1), hd] at h
  have := walk_inner (dots_pkl h2) h
  rw [this, parts, comps_split]

/-- appending the suffix does not make names equal -/
theorem parts_pkl {n n' : List Char} (h : parts (n ++ ".pkl".toList) = parts (n' ++ ".pkl".toList)) :
    (comps n).dropLast.filter (fun c => c ≠ [] ∧ c ≠ ['.']) = (comps n').dropLast.filter (fun c => c ≠ [] ∧ c ≠ ['.']) ∧
      (comps n).getLast? = (comps n').getLast? := by
  obtain ⟨cs, m, h1, h2⟩ := comps_both n
  obtain ⟨cs', m', h1', h2'⟩ := comps_both n'
  obtain ⟨a, b, -⟩ := pkl_ne m
  obtain ⟨a', b', -⟩ := pkl_ne m'
  rw [parts, parts, ← comps_split, ← comps_split, h2, h2', List.filter_append, List.filter_append,
    List.filter_cons_of_pos (by simp only [ne_eq, decide_eq_true_eq]; exact ⟨a, b⟩),
    List.filter_cons_of_pos (by simp only [ne_eq, decide_eq_true_eq]; exact ⟨a', b'⟩)] at h
  have h3 := List.append_inj' h rfl
  rw [h1, h1']
  simp only [List.dropLast_concat, List.getLast?_concat]
  refine ⟨h3.1, ?_⟩
  have h4 : m ++ ".pkl".toList = m' ++ ".pkl".toList := by simpa using h3.2
  rw [List.append_cancel_right h4]

end Lemmas
