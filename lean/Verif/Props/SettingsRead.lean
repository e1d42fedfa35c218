import Verif.Lemmas.SettingsRead

/-!
# What a text in the environment means: C137
-/

namespace Props
open Np Model Spec Lemmas

/-- **C137**, numbers: a setting that is a number is accepted exactly if its text is an integer as Python writes them (blanks
around it, one sign, digits in groups with single underscores between them), and then it has that value; all other texts are
refused with `ValueError`. -/
theorem C137_int (v : List Char) : (∀ i, pyInt v = .ok i ↔ IntText v i) ∧
    ((¬ ∃ i, IntText v i) → pyInt v = .error .value) := by
  have key : ∀ i, pyInt v = .ok i ↔ IntText v i := by
    intro i
    constructor
    · intro h
      obtain ⟨pre, post, hpre, hpost, e⟩ := strip_parts v
      unfold pyInt at h
      split at h
      · rename_i r hs
        cases hu : unsignedVal r with
        | none => simp [hu] at h
        | some n =>
          simp only [hu, Except.ok.injEq] at h
          exact ⟨pre, r, post, n, hpre, hpost, (unsignedVal_iff r n).1 hu, .inr (.inr ⟨by rw [e, hs], h.symm⟩)⟩
      · rename_i r hs
        cases hu : unsignedVal r with
        | none => simp [hu] at h
        | some n =>
          simp only [hu, Except.ok.injEq] at h
          exact ⟨pre, r, post, n, hpre, hpost, (unsignedVal_iff r n).1 hu, .inr (.inl ⟨by rw [e, hs], h.symm⟩)⟩
      · rename_i r hs1 hs2
        cases hu : unsignedVal (strip v) with
        | none => simp [hu] at h
        | some n =>
          simp only [hu, Except.ok.injEq] at h
          exact ⟨pre, strip v, post, n, hpre, hpost, (unsignedVal_iff _ n).1 hu, .inl ⟨e, h.symm⟩⟩
    · rintro ⟨pre, body, post, n, hpre, hpost, hn, hcase⟩
      obtain ⟨⟨d, l, hd, e1⟩, l', d', hd', e2⟩ := numeral_ends hn
      have hu := (unsignedVal_iff body n).2 hn
      obtain ⟨-, hm, hp, hsp⟩ := digitChar_ne hd
      have hsp' := (digitChar_ne hd').2.2.2
      rcases hcase with ⟨rfl, rfl⟩ | ⟨rfl, rfl⟩ | ⟨rfl, rfl⟩
      · have hs : strip (pre ++ body ++ post) = Nat.digitChar d :: l := by
          rw [e1]
          exact strip_of hpre hpost (l' := l') (e1 ▸ e2) hsp hsp'
        unfold pyInt
        rw [hs]
        rw [e1] at hu
        split
        · rename_i heq; simp only [List.cons.injEq] at heq; exact absurd heq.1 hm
        · rename_i heq; simp only [List.cons.injEq] at heq; exact absurd heq.1 hp
        · rw [hu]
      · have hs : strip (pre ++ '+' :: body ++ post) = '+' :: body :=
          strip_of hpre hpost (l' := '+' :: l') (by rw [e2]; rfl) (by decide) hsp'
        unfold pyInt
        rw [hs]
        simp [hu]
      · have hs : strip (pre ++ '-' :: body ++ post) = '-' :: body :=
          strip_of hpre hpost (l' := '-' :: l') (by rw [e2]; rfl) (by decide) hsp'
        unfold pyInt
        rw [hs]
        simp [hu]
  refine ⟨key, fun h => ?_⟩
  cases hp : pyInt v with
  | ok i => exact absurd ⟨i, (key i).1 hp⟩ h
  | error e =>
    unfold pyInt at hp
    split at hp <;> split at hp <;> simp_all

/-- **C137**, switches: exactly the twelve words, in small or capital letters; all other texts are refused with
`ValueError`. -/
theorem C137_switch (v : List Char) : (∀ b, strtobool v = .ok b ↔ SwitchText v b) ∧
    ((¬ ∃ b, SwitchText v b) → strtobool v = .error .value) := by
  have h1 : (v.map Char.toLower ∈ ["y".toList, "yes".toList, "t".toList, "true".toList, "on".toList, "1".toList]) ↔
      Word ["y", "yes", "t", "true", "on", "1"] v := by simp [Word]
  have h0 : (v.map Char.toLower ∈ ["n".toList, "no".toList, "f".toList, "false".toList, "off".toList, "0".toList]) ↔
      Word ["n", "no", "f", "false", "off", "0"] v := by simp [Word]
  have excl : Word ["y", "yes", "t", "true", "on", "1"] v → ¬ Word ["n", "no", "f", "false", "off", "0"] v := by
    rintro ⟨w, hw, e⟩ ⟨w', hw', e'⟩
    have : w = w' := String.toList_inj.1 (e.symm.trans e')
    subst this
    simp only [List.mem_cons, List.not_mem_nil, or_false] at hw hw'
    rcases hw with rfl | rfl | rfl | rfl | rfl | rfl <;> simp at hw'
  have hs : ∀ x, strtobool v = x ↔ (Word ["y", "yes", "t", "true", "on", "1"] v ∧ .ok 1 = x) ∨
      (Word ["n", "no", "f", "false", "off", "0"] v ∧ .ok 0 = x) ∨
      (¬ Word ["y", "yes", "t", "true", "on", "1"] v ∧ ¬ Word ["n", "no", "f", "false", "off", "0"] v ∧ .error .value = x) := by
    intro x
    rw [← h1, ← h0] at excl
    rw [← h1, ← h0]
    unfold strtobool
    generalize hw : v.map Char.toLower = w at *
    dsimp only
    split_ifs with hy hn
    · have := excl hy
      tauto
    · tauto
    · tauto
  refine ⟨fun b => ?_, fun hb => ?_⟩
  · rw [hs, SwitchText]
    simp only [Except.ok.injEq, reduceCtorEq, and_false, or_false]
    rw [and_comm, and_comm (a := Word ["n", "no", "f", "false", "off", "0"] v), eq_comm, eq_comm (a := 0)]
  · exact (hs _).2 (.inr (.inr ⟨fun h => hb ⟨1, .inl ⟨rfl, h⟩⟩, fun h => hb ⟨0, .inr ⟨rfl, h⟩⟩, rfl⟩))

theorem orSetting_iff {α : Type} {read : List Char → Except Err α} {T : List Char → α → Prop}
    (h : ∀ v a, read v = .ok a ↔ T v a) (e : Env) (k : String) (arg : Option α) (a : α) :
    orSetting read e k arg = .ok a ↔ InForce T (e k) arg a := by
  unfold orSetting InForce Env.read
  cases arg with
  | some b => simp
  | none =>
    cases hk : e k with
    | none => simp [bind, Except.bind]
    | some v => simp [bind, Except.bind, h]

theorem bind_ok {α β : Type} {x : Except Err α} {f : α → Except Err β} {b : β} :
    (x >>= f) = .ok b ↔ ∃ a, x = .ok a ∧ f a = .ok b := by
  cases x <;> simp [bind, Except.bind]

/-- **C137**, the options of an integration: the constructor returns normally exactly if every option that is not given as an
argument is set to a readable text, and the directory setting is there; arguments win over settings, and the directory is the
argument, else the setting if it is not empty, else that of the verifier, else the current one. -/
theorem C137_integration (home : List Char → List Char) (vdir : Option (List Char)) (A : IntegArgs) (e : Env) (r : IntegOptions) :
    integOptions home vdir A e = .ok r ↔
      InForce SwitchText (e "pyanen_tqdm_disable") A.disable r.disable ∧
      InForce SwitchText (e "pyanen_tqdm_leave") A.leave r.leave ∧
      InForce IntText (e "pyanen_tqdm_workers") A.workers r.cores ∧
      InForce IntText (e "pyanen_tqdm_chunksize") A.chunk r.chunk ∧
      InForce SwitchText (e "pyanen_integrate_with_less_memory") A.lessMemory r.lessMemory ∧
      ∃ wdir, e "pyanen_integrate_wdir" = some wdir ∧
        (A.dir = some r.dir ∨ (A.dir = none ∧ wdir ≠ [] ∧ r.dir = home wdir) ∨
          (A.dir = none ∧ wdir = [] ∧ (vdir = some r.dir ∨ (vdir = none ∧ r.dir = ['.'])))) := by
  have hsw := fun k arg b => orSetting_iff (fun v b => (C137_switch v).1 b) e k arg b
  have hin := fun k arg i => orSetting_iff (fun v i => (C137_int v).1 i) e k arg i
  have hr : ∀ k v, e.read k = .ok v ↔ e k = some v := by
    intro k v
    unfold Env.read
    cases e k <;> simp
  unfold integOptions
  simp only [bind_ok, hsw, hin, hr, pure, Except.pure, Except.ok.injEq]
  obtain ⟨r1, r2, r3, r4, r5, r6⟩ := r
  simp only [IntegOptions.mk.injEq]
  constructor
  · rintro ⟨a1, h1, a2, h2, a3, h3, a4, h4, a5, h5, w, hw, rfl, rfl, rfl, rfl, rfl, h6⟩
    refine ⟨h1, h2, h3, h4, h5, w, hw, ?_⟩
    cases hA : A.dir with
    | some d => left; rw [hA] at h6; simpa using h6
    | none =>
      rw [hA] at h6
      right
      by_cases hwe : w = []
      · right
        refine ⟨rfl, hwe, ?_⟩
        cases vdir with
        | some d => left; simpa [hwe] using h6
        | none => right; simpa [hwe, eq_comm] using h6
      · left
        exact ⟨rfl, hwe, by simpa [hwe, eq_comm] using h6⟩
  · rintro ⟨h1, h2, h3, h4, h5, w, hw, h6⟩
    refine ⟨r1, h1, r2, h2, r3, h3, r4, h4, r5, h5, w, hw, rfl, rfl, rfl, rfl, rfl, ?_⟩
    rcases h6 with h | ⟨h, hne, rfl⟩ | ⟨h, rfl, h' | ⟨h', rfl⟩⟩
    · rw [h]
    · simp [h, hne]
    · simp [h, h']
    · simp [h, h']

/-- **C137**, the numbers of a bootstrap: arguments win over settings, settings count only where there is no argument. -/
theorem C137_boot {α : Type} {float : List Char → Except Err α} {T : List Char → α → Prop}
    (hT : ∀ v a, float v = .ok a ↔ T v a) (n reps : Option Int) (conf : Option α) (e : Env) (r : Int × Int × α) :
    bootOptions float n reps conf e = .ok r ↔
      InForce IntText (e "pyanen_boot_samples") n r.1 ∧ InForce IntText (e "pyanen_boot_repeats") reps r.2.1 ∧
      InForce T (e "pyanen_boot_confidence") conf r.2.2 := by
  have hin := fun k arg i => orSetting_iff (fun v i => (C137_int v).1 i) e k arg i
  unfold bootOptions
  simp only [bind_ok, hin, orSetting_iff hT, pure, Except.pure, Except.ok.injEq]
  obtain ⟨r1, r2, r3⟩ := r
  simp only [Prod.mk.injEq]
  constructor
  · rintro ⟨a1, h1, a2, h2, a3, h3, rfl, rfl, rfl⟩
    exact ⟨h1, h2, h3⟩
  · rintro ⟨h1, h2, h3⟩
    exact ⟨r1, h1, r2, h2, r3, h3, rfl, rfl, rfl⟩

/-- `' +1_000\n'` is a thousand; `''`, `'1__0'`, `'_1'` and `'1.5'` are no integers -/
example : IntText " +1_000\n".toList 1000 ∧ pyInt " +1_000\n".toList = .ok 1000 ∧ (¬ ∃ i, IntText "".toList i) ∧
    (¬ ∃ i, IntText "1__0".toList i) ∧ (¬ ∃ i, IntText "_1".toList i) ∧ ¬ ∃ i, IntText "1.5".toList i := by
  refine ⟨?_, by decide, ?_, ?_, ?_, ?_⟩
  · exact ((C137_int _).1 _).1 (by decide)
  all_goals
    rintro ⟨i, hi⟩
    have := ((C137_int _).1 i).2 hi
    revert this
    rw [show pyInt _ = .error .value from by decide]
    simp

/-- `'OFF'` is off, `'t'` is on, `'2'` is neither -/
example : SwitchText "OFF".toList 0 ∧ SwitchText "t".toList 1 ∧ ¬ ∃ b, SwitchText "2".toList b := by
  refine ⟨((C137_switch _).1 _).1 (by decide), ((C137_switch _).1 _).1 (by decide), ?_⟩
  rintro ⟨b, hb⟩
  have := ((C137_switch _).1 b).2 hb
  revert this
  rw [show strtobool "2".toList = .error .value from by decide]
  simp

/-- two workers by argument, the others from the environment, and no directory anywhere -/
example : integOptions id none ⟨some 1, none, some 2, none, none, none⟩ (fun k =>
      if k = "pyanen_tqdm_leave" then some "False".toList else if k = "pyanen_tqdm_chunksize" then some " 10".toList
      else if k = "pyanen_integrate_with_less_memory" then some "on".toList
      else if k = "pyanen_integrate_wdir" then some [] else none) = .ok ⟨1, 0, 2, 10, 1, ['.']⟩ := by decide

end Props
