import Verif.Model.IO
import Mathlib.Algebra.Order.Field.Basic
import Mathlib.Tactic.FieldSimp
import Mathlib.Tactic.Linarith

namespace Lemmas
open Np Model

variable {D : Type}

theorem lookup_map {α β γ : Type} [BEq α] (l : List (α × β)) (g : α → β → γ) (k : α) [LawfulBEq α] :
    (l.map fun kv => (kv.1, g kv.1 kv.2)).lookup k = (l.lookup k).map (g k) := by
  induction l with
  | nil => rfl
  | cons kv l ih =>
    obtain ⟨a, b⟩ := kv
    simp only [List.map_cons, List.lookup_cons]
    cases h : k == a with
    | true => rw [beq_iff_eq] at h; subst h; rfl
    | false => exact ih

theorem lookup_setVar (l : List (String × DVar D)) (k k' : String) (v : DVar D) :
    (setVar l k v).lookup k' = if k' = k then some v else l.lookup k' := by
  induction l with
  | nil =>
    simp only [setVar, List.lookup_cons, List.lookup_nil]
    by_cases h : k' = k
    · simp [h]
    · have hb : (k' == k) = false := by simp [h]
      simp [h, hb]
  | cons kv l ih =>
    obtain ⟨a, b⟩ := kv
    simp only [setVar]
    by_cases ha : a = k
    · subst ha
      simp only [if_true, List.lookup_cons]
      by_cases h : k' = a
      · simp [h]
      · have hb : (k' == a) = false := by simp [h]
        simp [h, hb]
    · simp only [if_neg ha, List.lookup_cons, ih]
      by_cases h : k' = a
      · subst h; simp [ha]
      · have : (k' == a) = false := by simp [h]
        simp [this]

theorem get_setCoord {ds ds' : Dataset D} {k : String} {v : DVar D} (h : ds.setCoord k v = .ok ds') (k' : String) :
    ds'.get? k' = if k' = k then some v else ds.get? k' := by
  unfold Dataset.setCoord at h
  split at h
  · split_ifs at h <;>
      (simp only [Except.ok.injEq] at h; subst h; exact lookup_setVar _ _ _ _)
  · cases h

/-- names that are not coordinates of the table are not touched -/
theorem coordLoop_other {tab : List (String × String)} {ds ds' : Dataset D} (h : coordLoop tab ds = .ok ds')
    {k : String} (hk : k ∉ tab.map Prod.fst) : ds'.get? k = ds.get? k := by
  induction tab generalizing ds with
  | nil => cases h; rfl
  | cons kv tab ih =>
    obtain ⟨a, b⟩ := kv
    simp only [List.map_cons, List.mem_cons, not_or] at hk
    simp only [coordLoop] at h
    split_ifs at h
    · split at h
      · rename_i dv _
        split at h
        · cases h
        · rename_i ds1 h1
          rw [ih h hk.2, get_setCoord h1, if_neg hk.1]
      · exact ih h hk.2
    · exact ih h hk.2

/-- a coordinate of the table is unchanged, or a copy of its source -/
theorem coordLoop_coord {tab : List (String × String)} (hd : (tab.map Prod.fst).Nodup)
    (hs : ∀ kv ∈ tab, kv.2 ∉ tab.map Prod.fst) {ds ds' : Dataset D} (h : coordLoop tab ds = .ok ds')
    {k s : String} (hk : (k, s) ∈ tab) :
    ds'.get? k = ds.get? k ∨ ((ds.get? s).isSome ∧ ds'.get? k = ds.get? s) := by
  induction tab generalizing ds with
  | nil => cases hk
  | cons kv tab ih =>
    obtain ⟨a, b⟩ := kv
    rw [List.map_cons, List.nodup_cons] at hd
    have hs' : ∀ kv ∈ tab, kv.2 ∉ tab.map Prod.fst := fun kv hkv hm =>
      hs kv (by simp [hkv]) (by rw [List.map_cons]; exact List.mem_cons_of_mem _ hm)
    simp only [coordLoop] at h
    rcases List.mem_cons.1 hk with he | hk'
    · simp only [Prod.mk.injEq] at he
      obtain ⟨rfl, rfl⟩ := he
      split_ifs at h
      · split at h
        · rename_i dv hdv
          split at h
          · cases h
          · rename_i ds1 h1
            rw [coordLoop_other h hd.1, get_setCoord h1, if_pos rfl, hdv]
            exact Or.inr ⟨rfl, rfl⟩
        · rw [coordLoop_other h hd.1]; exact Or.inl rfl
      · rw [coordLoop_other h hd.1]; exact Or.inl rfl
    · have hka : k ≠ a := by rintro rfl; exact hd.1 (List.mem_map.2 ⟨_, hk', rfl⟩)
      have hsa : s ≠ a := by
        rintro rfl
        exact hs (k, s) hk (by simp)
      split_ifs at h
      · split at h
        · rename_i dv hdv
          split at h
          · cases h
          · rename_i ds1 h1
            have := ih hd.2 hs' h hk'
            rw [get_setCoord h1, get_setCoord h1, if_neg hka, if_neg hsa] at this
            exact this
        · exact ih hd.2 hs' h hk'
      · exact ih hd.2 hs' h hk'

theorem hasDim_of_get {ds : Dataset D} {s k : String} {v : DVar D} {n : Nat} (h : ds.get? s = some v)
    (hd : (k, n) ∈ v.dims) : ds.hasDim k = true := by
  unfold Dataset.get? at h
  unfold Dataset.hasDim Dataset.size?
  have hm : (s, v) ∈ ds.vars := by
    generalize ds.vars = l at h
    induction l with
    | nil => cases h
    | cons a l ih =>
      obtain ⟨b, w⟩ := a
      rw [List.lookup_cons] at h
      by_cases hb : s = b
      · subst hb
        simp only [BEq.rfl, Option.some.injEq] at h
        subst h
        simp
      · have : (s == b) = false := by simp [hb]
        rw [this] at h
        exact List.mem_cons_of_mem _ (ih h)
  have hm2 : (k, n) ∈ ds.vars.flatMap fun v => v.2.dims := List.mem_flatMap.2 ⟨_, hm, hd⟩
  generalize (ds.vars.flatMap fun v => v.2.dims) = l at hm2
  induction l with
  | nil => cases hm2
  | cons a l ih =>
    obtain ⟨b, w⟩ := a
    rw [List.lookup_cons]
    by_cases hb : k = b
    · subst hb; simp
    · have : (k == b) = false := by simp [hb]
      rw [this]
      rcases List.mem_cons.1 hm2 with e | e
      · cases e; exact absurd rfl hb
      · exact ih e

/-- a source along its dimension is copied to the coordinate -/
theorem coordLoop_copy {tab : List (String × String)} (hd : (tab.map Prod.fst).Nodup)
    (hs : ∀ kv ∈ tab, kv.2 ∉ tab.map Prod.fst) {ds ds' : Dataset D} (h : coordLoop tab ds = .ok ds')
    {k s : String} (hk : (k, s) ∈ tab) {x : DVar D} (hx : ds.get? s = some x) {n : Nat} (hn : (k, n) ∈ x.dims) :
    ds'.get? k = some x ∧ ds'.get? s = some x := by
  refine ⟨?_, by rw [coordLoop_other h (hs _ hk), hx]⟩
  induction tab generalizing ds with
  | nil => cases hk
  | cons kv tab ih =>
    obtain ⟨a, b⟩ := kv
    rw [List.map_cons, List.nodup_cons] at hd
    have hs' : ∀ kv ∈ tab, kv.2 ∉ tab.map Prod.fst := fun kv hkv hm =>
      hs kv (by simp [hkv]) (by rw [List.map_cons]; exact List.mem_cons_of_mem _ hm)
    simp only [coordLoop] at h
    rcases List.mem_cons.1 hk with he | hk'
    · simp only [Prod.mk.injEq] at he
      obtain ⟨rfl, rfl⟩ := he
      rw [if_pos (hasDim_of_get hx hn)] at h
      simp only [hx] at h
      split at h
      · cases h
      · rename_i ds1 h1
        rw [coordLoop_other h hd.1, get_setCoord h1, if_pos rfl]
    · have hsa : s ≠ a := by
        rintro rfl
        exact hs (k, s) hk (by simp)
      split_ifs at h
      · split at h
        · rename_i dv hdv
          split at h
          · cases h
          · rename_i ds1 h1
            exact ih hd.2 hs' h hk' (by rw [get_setCoord h1, if_neg hsa, hx])
        · exact ih hd.2 hs' h hk' hx
      · exact ih hd.2 hs' h hk' hx

/-- if the dimension is there and the source too, it is a copy -/
theorem coordLoop_units {tab : List (String × String)} {ds ds' : Dataset D} (h : coordLoop tab ds = .ok ds') :
    ∀ k, (∃ s, (k, s) ∈ tab) ∨ ds'.get? k = ds.get? k := by
  intro k
  by_cases hk : k ∈ tab.map Prod.fst
  · obtain ⟨⟨a, s⟩, h1, rfl⟩ := List.mem_map.1 hk
    exact Or.inl ⟨s, h1⟩
  · exact Or.inr (coordLoop_other h hk)

theorem lookup_unitLoop (l : List (String × DVar D)) (k : String) :
    (unitLoop l).lookup k = (l.lookup k).map fun v => if k ∈ timeVars then { v with units := some epoch } else v := by
  have : unitLoop l = l.map fun kv => (kv.1, if kv.1 ∈ timeVars then { kv.2 with units := some epoch } else kv.2) := by
    unfold unitLoop
    apply List.map_congr_left
    intro kv _
    split <;> rfl
  rw [this, lookup_map l fun k v => if k ∈ timeVars then { v with units := some epoch } else v]

/-- what becomes of one variable in the decoding loop -/
def decodeVar (v : DVar D) : DVar D :=
  if hasChars v then ⟨v.dims.filter fun d => d.1 ≠ "num_chars", none, match v.data with
    | .chars m => .names (decodeNames m)
    | d => d⟩
  else v

theorem decodeVars_eq {l : List (String × DVar D)} (h : (decodeVars l).2 = false) :
    (decodeVars l).1 = l.map fun kv => (kv.1, decodeVar kv.2) := by
  induction l with
  | nil => rfl
  | cons kv l ih =>
    obtain ⟨k, v⟩ := kv
    simp only [decodeVars] at h ⊢
    by_cases hc : hasChars v = true
    · rw [if_pos hc] at h ⊢
      by_cases hl : v.dims.length - 1 ≠ 1
      · rw [if_pos hl] at h; cases h
      · rw [if_neg hl] at h ⊢
        simp only at h ⊢
        rw [ih h, List.map_cons]
        congr 1
        simp only [decodeVar, hc, if_true]
        cases v.data <;> rfl
    · rw [if_neg hc] at h ⊢
      simp only at h ⊢
      rw [ih h, List.map_cons]
      simp [decodeVar, hc]

theorem decodeVars_flag (l : List (String × DVar D)) :
    (decodeVars l).2 = true ↔ ∃ kv ∈ l, hasChars kv.2 = true ∧ kv.2.dims.length ≠ 2 := by
  induction l with
  | nil => simp [decodeVars]
  | cons kv l ih =>
    obtain ⟨k, v⟩ := kv
    simp only [decodeVars]
    by_cases hc : hasChars v = true
    · rw [if_pos hc]
      by_cases hl : v.dims.length - 1 ≠ 1
      · rw [if_pos hl]
        simp only [true_iff]
        exact ⟨(k, v), by simp, hc, by simp only; omega⟩
      · rw [if_neg hl]
        simp only [ih, List.mem_cons, exists_eq_or_imp]
        have : v.dims.length = 2 := by omega
        simp [this]
    · rw [if_neg hc]
      simp [ih, hc]

/-! ### names of variables -/

theorem setVar_fst (l : List (String × DVar D)) (k : String) (v : DVar D) :
    (setVar l k v).map Prod.fst = if k ∈ l.map Prod.fst then l.map Prod.fst else l.map Prod.fst ++ [k] := by
  induction l with
  | nil => simp [setVar]
  | cons kv l ih =>
    obtain ⟨a, b⟩ := kv
    simp only [setVar]
    by_cases ha : a = k
    · subst ha; simp
    · rw [if_neg ha, List.map_cons, ih]
      have hk : k ≠ a := fun h => ha h.symm
      simp only [List.map_cons, List.mem_cons, hk, false_or]
      split_ifs <;> simp

theorem setVar_nodup {l : List (String × DVar D)} (h : (l.map Prod.fst).Nodup) (k : String) (v : DVar D) :
    ((setVar l k v).map Prod.fst).Nodup := by
  rw [setVar_fst]
  split_ifs with hk
  · exact h
  · exact List.nodup_append.2 ⟨h, by simp, by
      intro a ha b hb; rintro rfl; rw [List.mem_singleton] at hb; subst hb; exact hk ha⟩

theorem coordLoop_nodup {tab : List (String × String)} {ds ds' : Dataset D} (h : coordLoop tab ds = .ok ds')
    (hd : (ds.vars.map Prod.fst).Nodup) : (ds'.vars.map Prod.fst).Nodup := by
  induction tab generalizing ds with
  | nil => cases h; exact hd
  | cons kv tab ih =>
    obtain ⟨a, b⟩ := kv
    simp only [coordLoop] at h
    split_ifs at h
    · split at h
      · split at h
        · cases h
        · rename_i ds1 h1
          refine ih h ?_
          unfold Dataset.setCoord at h1
          split at h1
          · split_ifs at h1 <;>
              (simp only [Except.ok.injEq] at h1; subst h1; exact setVar_nodup hd _ _)
          · cases h1
      · exact ih h hd
    · exact ih h hd

theorem decodeVars_fst (l : List (String × DVar D)) : (decodeVars l).1.map Prod.fst = l.map Prod.fst := by
  induction l with
  | nil => rfl
  | cons kv l ih =>
    obtain ⟨k, v⟩ := kv
    simp only [decodeVars]
    split_ifs <;> simp [ih]

/-- variables without characters pass the decoding loop, complete or not -/
theorem lookup_decodeVars (l : List (String × DVar D)) (k : String) :
    (l.lookup k = none → (decodeVars l).1.lookup k = none) ∧
    ∀ v, l.lookup k = some v → hasChars v = false → (decodeVars l).1.lookup k = some v := by
  refine ⟨fun h => ?_, fun v => ?_⟩
  · have h1 : ∀ (m : List (String × DVar D)), m.lookup k = none ↔ k ∉ m.map Prod.fst := by
      intro m
      induction m with
      | nil => simp
      | cons kv m ih =>
        obtain ⟨a, b⟩ := kv
        rw [List.lookup_cons]
        by_cases h : k = a
        · subst h; simp
        · have : (k == a) = false := by simp [h]
          simp [this, ih, h]
    rw [h1, decodeVars_fst, ← h1]
    exact h
  · induction l with
    | nil => intro h; cases h
    | cons kv l ih =>
      obtain ⟨a, b⟩ := kv
      intro h hc
      rw [List.lookup_cons] at h
      simp only [decodeVars]
      cases hk : k == a with
      | true =>
        rw [hk] at h
        simp only [Option.some.injEq] at h
        subst h
        rw [hc]
        simp [List.lookup_cons, hk]
      | false =>
        rw [hk] at h
        simp only at h
        split_ifs <;> simp only [List.lookup_cons, hk]
        · exact h
        · exact ih h hc
        · exact ih h hc

theorem unitLoop_fst (l : List (String × DVar D)) : (unitLoop l).map Prod.fst = l.map Prod.fst := by
  unfold unitLoop
  rw [List.map_map]
  apply List.map_congr_left
  intro kv _
  simp only [Function.comp]
  split_ifs <;> rfl

theorem lookup_none_iff {β : Type} (l : List (String × β)) (k : String) :
    l.lookup k = none ↔ k ∉ l.map Prod.fst := by
  induction l with
  | nil => simp
  | cons kv l ih =>
    obtain ⟨a, b⟩ := kv
    rw [List.lookup_cons]
    by_cases h : k = a
    · subst h; simp
    · have : (k == a) = false := by simp [h]
      simp [this, ih, h]

theorem rename_nodup {ds ds' : Dataset D} {a b : String} (h : ds.rename a b = .ok ds')
    (hd : (ds.vars.map Prod.fst).Nodup) : (ds'.vars.map Prod.fst).Nodup := by
  unfold Dataset.rename at h
  split_ifs at h with hc
  simp only [Except.ok.injEq] at h
  subst h
  have hb : b ∉ ds.vars.map Prod.fst := by
    rw [← lookup_none_iff]
    cases hl : ds.vars.lookup b with
    | none => rfl
    | some v => exact absurd (Or.inl (by unfold Dataset.get?; rw [hl]; rfl)) hc
  have : (ds.vars.map fun kv => (renDim a b kv.1,
      ({ kv.2 with dims := kv.2.dims.map fun d => (renDim a b d.1, d.2) } : DVar D))).map Prod.fst =
      (ds.vars.map Prod.fst).map (renDim a b) := by
    simp [List.map_map, Function.comp_def]
  simp only [this]
  refine List.Nodup.map_on ?_ hd
  intro x hx y hy hxy
  unfold renDim at hxy
  split_ifs at hxy with h1 h2 h2
  · exact h1.trans h2.symm
  · exact absurd (hxy ▸ hy) hb
  · exact absurd (hxy ▸ hx) hb
  · exact hxy

theorem hasDim_iff (ds : Dataset D) (d : String) :
    ds.hasDim d = true ↔ ∃ kv ∈ ds.vars, ∃ n, (d, n) ∈ kv.2.dims := by
  unfold Dataset.hasDim Dataset.size?
  have : ∀ l : List (String × Nat), (l.lookup d).isSome = true ↔ ∃ n, (d, n) ∈ l := by
    intro l
    induction l with
    | nil => simp
    | cons a l ih =>
      obtain ⟨a, m⟩ := a
      rw [List.lookup_cons]
      by_cases h : d = a
      · subst h; simp
      · have hb : (d == a) = false := by simp [h]
        simp [hb, h, ih]
  rw [this]
  constructor
  · rintro ⟨n, h⟩
    obtain ⟨kv, h1, h2⟩ := List.mem_flatMap.1 h
    exact ⟨kv, h1, n, h2⟩
  · rintro ⟨kv, h1, n, h2⟩
    exact ⟨n, List.mem_flatMap.2 ⟨kv, h1, h2⟩⟩

theorem lookup_none {l : List (String × DVar D)} {k : String} (h : l.lookup k = none) : ∀ kv ∈ l, kv.1 ≠ k := by
  induction l with
  | nil => simp
  | cons kv l ih =>
    obtain ⟨a, v⟩ := kv
    rw [List.lookup_cons] at h
    by_cases hk : k = a
    · subst hk; simp at h
    · have hb : (k == a) = false := by simp [hk]
      simp only [hb] at h
      intro kv hkv
      rcases List.mem_cons.1 hkv with rfl | hkv
      · exact fun e => hk e.symm
      · exact ih h kv hkv

/-- the dimensions of a variable after a renaming -/
def renVar (a b : String) (v : DVar D) : DVar D := { v with dims := v.dims.map fun d => (renDim a b d.1, d.2) }

theorem lookup_rename (l : List (String × DVar D)) (a b : String) (hb : l.lookup b = none) (k : String) :
    (l.map fun kv => (renDim a b kv.1, renVar a b kv.2)).lookup k =
      (if k = b then l.lookup a else if k = a then none else l.lookup k).map (renVar a b) := by
  induction l with
  | nil => simp
  | cons kv l ih =>
    obtain ⟨c, v⟩ := kv
    have hcb : c ≠ b := lookup_none hb (c, v) (by simp)
    have hb' : l.lookup b = none := by
      rw [List.lookup_cons] at hb
      have : (b == c) = false := by simp [Ne.symm hcb]
      simpa [this] using hb
    specialize ih hb'
    simp only [List.map_cons, List.lookup_cons, ih]
    by_cases hca : c = a
    · subst hca
      have : renDim c b c = b := by simp [renDim]
      rw [this]
      by_cases hkb : k = b
      · subst hkb; simp
      · have hkb' : (k == b) = false := by simp [hkb]
        simp only [hkb', hkb, if_false]
        by_cases hkc : k = c
        · simp [hkc]
        · have : (k == c) = false := by simp [hkc]
          simp [hkc, this]
    · have : renDim a b c = c := by simp [renDim, hca]
      rw [this]
      by_cases hkc : k = c
      · subst hkc
        simp [hcb, hca]
      · have hkc' : (k == c) = false := by simp [hkc]
        have hac : (a == c) = false := by simp [Ne.symm hca]
        simp only [hkc', hac]

theorem get_rename {ds ds' : Dataset D} {a b : String} (h : ds.rename a b = .ok ds') (k : String) :
    ds'.get? k = (if k = b then ds.get? a else if k = a then none else ds.get? k).map (renVar a b) := by
  unfold Dataset.rename at h
  split_ifs at h with hc
  · simp only [Except.ok.injEq] at h
    subst h
    have hb : ds.vars.lookup b = none := by
      cases hl : ds.vars.lookup b with
      | none => rfl
      | some v => exact absurd (Or.inl (by unfold Dataset.get?; rw [hl]; rfl)) hc
    exact lookup_rename ds.vars a b hb k

/-! ### rank numbers -/

theorem rankAt_none {c : Char} {s : List Char} (h : c ≠ 'R') : rankAt (c :: s) = none := by
  unfold rankAt
  rw [if_neg]
  intro e
  have h1 := congrArg List.head? e
  have : ("Rank".toList).head? = some 'R' := by decide
  rw [this] at h1
  simp only [List.take_succ_cons, List.head?_cons, Option.some.injEq] at h1
  exact h h1

theorem ranksFrom_noR {s : List Char} (h : 'R' ∉ s) (k : Nat) : ranksFrom k s = [] := by
  induction s generalizing k with
  | nil => cases k <;> rfl
  | cons c s ih =>
    simp only [List.mem_cons, not_or] at h
    cases k with
    | zero =>
      simp only [ranksFrom, rankAt_none (Ne.symm h.1)]
      exact ih h.2 0
    | succ k => exact ih h.2 k

theorem ranksFrom_pre {pre : List Char} (h : 'R' ∉ pre) (s : List Char) : ranksFrom 0 (pre ++ s) = ranksFrom 0 s := by
  induction pre with
  | nil => rfl
  | cons c pre ih =>
    simp only [List.mem_cons, not_or] at h
    simp only [List.cons_append, ranksFrom, rankAt_none (Ne.symm h.1)]
    exact ih h.2

theorem ranksFrom_skip (u s : List Char) (k : Nat) : ranksFrom (u.length + k) (u ++ s) = ranksFrom k s := by
  induction u with
  | nil => simp
  | cons c u ih =>
    have : (c :: u).length + k = (u.length + k) + 1 := by simp only [List.length_cons]; omega
    rw [this, List.cons_append]
    exact ih

theorem ranksFrom_one {ds post : List Char} (hd : ds ≠ []) (hdig : ∀ c ∈ ds, c.isDigit = true)
    (hpost : ∀ c, post.head? = some c → c.isDigit = false) :
    ranksFrom 0 ("Rank".toList ++ ds ++ post) = ds :: ranksFrom 0 post := by
  have htw : (ds ++ post).takeWhile Char.isDigit = ds := by
    rw [List.takeWhile_append_of_pos (by simpa using hdig)]
    cases post with
    | nil => simp
    | cons c post =>
      rw [List.takeWhile_cons_of_neg (by simp [hpost c rfl])]
      simp
  have e : "Rank".toList ++ ds ++ post = 'R' :: (['a', 'n', 'k'] ++ (ds ++ post)) := by
    have : "Rank".toList = ['R', 'a', 'n', 'k'] := by decide
    rw [this]; simp
  have hr : rankAt ('R' :: (['a', 'n', 'k'] ++ (ds ++ post))) = some ds := by
    unfold rankAt
    rw [if_pos (by simp)]
    have : ('R' :: (['a', 'n', 'k'] ++ (ds ++ post))).drop 4 = ds ++ post := by simp
    rw [this, htw]
    cases ds with
    | nil => exact absurd rfl hd
    | cons a ds => rfl
  rw [e]
  simp only [ranksFrom, hr]
  have := ranksFrom_skip (['a', 'n', 'k'] ++ ds) post 0
  rw [← this]
  simp only [List.append_assoc, List.length_append, List.length_cons, List.length_nil, Nat.add_zero]

/-! ### station coordinates -/

variable {K : Type} [Field K] [LinearOrder K] [IsStrictOrderedRing K]

theorem mem_stationCoords {r : Int} {n : Nat} {x : K} (h : x ∈ stationCoords r n) :
    (r : K) ≤ x ∧ x < (r : K) + 1 := by
  unfold stationCoords at h
  obtain ⟨i, hi, rfl⟩ := List.mem_map.1 h
  have hin : i < n := List.mem_range.1 hi
  have hn : (0 : K) < (n : K) := by exact_mod_cast Nat.lt_of_le_of_lt (Nat.zero_le i) hin
  have h0 : (0 : K) ≤ (i : K) / (n : K) := div_nonneg (Nat.cast_nonneg i) hn.le
  have h1 : (i : K) / (n : K) < 1 := by rw [div_lt_one hn]; exact_mod_cast hin
  constructor <;> linarith

theorem pairwise_stationCoords (r : Int) (n : Nat) : (stationCoords r n : List K).Pairwise (· < ·) := by
  unfold stationCoords
  rw [List.pairwise_map]
  apply List.Pairwise.imp_of_mem _ (List.pairwise_lt_range (n := n))
  intro a b ha hb hab
  have hbn : b < n := List.mem_range.1 hb
  have hn : (0 : K) < (n : K) := by exact_mod_cast Nat.lt_of_le_of_lt (Nat.zero_le b) hbn
  have : (a : K) / (n : K) < (b : K) / (n : K) := by
    apply div_lt_div_of_pos_right _ hn
    exact_mod_cast hab
  linarith

end Lemmas
