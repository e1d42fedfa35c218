import Verif.Model.Integration
import Verif.Spec.Integration
import Mathlib.Data.List.Perm.Basic
import Mathlib.Data.List.Nodup
import Mathlib.Tactic.FieldSimp
import Mathlib.Tactic.Ring
import Mathlib.Tactic.Linarith
import Mathlib.Algebra.Order.BigOperators.Group.Finset

/-! Helper lemmas for numerical integration. -/

set_option linter.unusedSectionVars false

namespace Model
open Np NDArr

variable {K : Type} [Field K] [LinearOrder K] [IsStrictOrderedRing K]

/-! ### the completion order -/

theorem rayIter_perm {α : Type} (pick : Nat → Nat) (n : Nat) (l : List α) (h : l.length = n) :
    (rayIter pick n l).Perm l := by
  induction n generalizing l with
  | zero => rw [List.length_eq_zero_iff.1 h]; exact List.Perm.refl _
  | succ n ih =>
    have hi : pick n % l.length < l.length := Nat.mod_lt _ (by omega)
    simp only [rayIter, List.getElem?_eq_getElem hi]
    have hp := ih (l.eraseIdx (pick n % l.length)) (by rw [List.length_eraseIdx_of_lt hi]; omega)
    exact (hp.cons _).trans (List.getElem_cons_eraseIdx_perm hi)

/-- writes with pairwise different positions: the order does not matter -/
theorem foldl_set_other {β : Type} (ev : List (Nat × β)) (m : List β) (i : Nat)
    (h : i ∉ ev.map Prod.fst) : (ev.foldl (fun m e => m.set e.1 e.2) m)[i]? = m[i]? := by
  induction ev generalizing m with
  | nil => rfl
  | cons e ev ih =>
    simp only [List.map_cons, List.mem_cons, not_or] at h
    rw [List.foldl_cons, ih _ h.2, List.getElem?_set_ne (by omega)]

theorem foldl_set_mem {β : Type} (ev : List (Nat × β)) (m : List β) (hn : (ev.map Prod.fst).Nodup)
    (i : Nat) (v : β) (hm : (i, v) ∈ ev) (hi : i < m.length) :
    (ev.foldl (fun m e => m.set e.1 e.2) m)[i]? = some v := by
  induction ev generalizing m with
  | nil => simp at hm
  | cons e ev ih =>
    rw [List.map_cons, List.nodup_cons] at hn
    rw [List.foldl_cons]
    rcases List.mem_cons.1 hm with rfl | hm'
    · rw [foldl_set_other _ _ _ hn.1]
      simp [hi]
    · exact ih _ hn.2 hm' (by simpa using hi)

theorem foldl_set_length {β : Type} (ev : List (Nat × β)) (m : List β) :
    (ev.foldl (fun m e => m.set e.1 e.2) m).length = m.length := by
  induction ev generalizing m with
  | nil => rfl
  | cons e ev ih => rw [List.foldl_cons, ih]; simp

theorem mapE_tasks {α : Type} {l : List (Nat × Except Err α)} {got : List (Nat × α)} :
    mapE (fun t => match t.2 with
      | .ok v => Except.ok (t.1, v)
      | .error e => .error e) l = .ok got ↔ l = got.map fun g => (g.1, Except.ok g.2) := by
  induction l generalizing got with
  | nil =>
    cases got <;> simp [mapE]
  | cons t l ih =>
    obtain ⟨i, r⟩ := t
    cases r with
    | error e =>
      simp only [mapE, reduceCtorEq, false_iff]
      intro h
      cases got with
      | nil => simp at h
      | cons g got => simp at h
    | ok v =>
      cases hl : mapE (fun t : Nat × Except Err α => match t.2 with
        | .ok v => Except.ok (t.1, v)
        | .error e => .error e) l with
      | error e =>
        simp only [mapE, hl, reduceCtorEq, false_iff]
        intro h
        cases got with
        | nil => simp at h
        | cons g got =>
          simp only [List.map_cons, List.cons.injEq] at h
          rw [ih.2 h.2] at hl
          cases hl
      | ok ys =>
        have := ih.1 hl
        simp only [mapE, hl]
        cases got with
        | nil => simp
        | cons g got =>
          constructor
          · intro h
            cases h
            simp [this]
          · intro h
            simp only [List.map_cons, List.cons.injEq, Prod.mk.injEq, Except.ok.injEq] at h
            have h2 := ih.2 h.2
            rw [hl] at h2
            cases h2
            congr 1
            rw [List.cons.injEq]
            exact ⟨Prod.ext h.1.1 h.1.2, rfl⟩

theorem mapE_opt {α : Type} (l : List α) :
    mapE (fun x : Option α => match x with
      | some v => Except.ok v
      | none => .error .type) (l.map some) = .ok l := by
  induction l with
  | nil => rfl
  | cons a l ih => simp [mapE, ih]

theorem mapE_iff_tasks {α β : Type} (row : β → Except Err α) (seq : List β) (rows : List α) (s : Nat) :
    mapE row seq = .ok rows ↔
      (seq.zipIdx s).map (fun p => (p.2, row p.1)) = (rows.zipIdx s).map fun p => (p.2, Except.ok p.1) := by
  induction seq generalizing rows s with
  | nil => cases rows <;> simp [mapE]
  | cons x seq ih =>
    rw [mapE_ok]
    cases rows with
    | nil => simp
    | cons r rows =>
      rw [List.forall₂_cons, ← mapE_ok, ih rows (s + 1)]
      simp

/-- whatever the completion order, the parallel run succeeds exactly when the sequential one does, with the
same rows -/
theorem rayRows_iff {α β : Type} (pick : Nat → Nat) (row : β → Except Err α) (seq : List β)
    (rows : List α) :
    rayRows pick (seq.zipIdx.map fun p => (p.2, row p.1)) = .ok rows ↔ mapE row seq = .ok rows := by
  set T := seq.zipIdx.map fun p => (p.2, row p.1) with hT
  have hperm := rayIter_perm pick T.length T rfl
  have key : ∀ got : List (Nat × α), mapE (fun t => match t.2 with
      | .ok v => Except.ok (t.1, v)
      | .error e => .error e) (rayIter pick T.length T) = .ok got →
      ∃ rs : List α, mapE row seq = .ok rs ∧
        got.foldl (fun acc t => acc.set t.1 (some t.2)) (List.replicate got.length none) = rs.map some := by
    intro got hgot
    rw [mapE_tasks] at hgot
    rw [hgot] at hperm
    -- the sequential run succeeds
    have hall : ∀ x ∈ seq, ∃ v, row x = .ok v := by
      intro x hx
      obtain ⟨i, hi, rfl⟩ := List.getElem_of_mem hx
      have : (i, row seq[i]) ∈ T := by
        rw [hT, List.mem_map]
        exact ⟨(seq[i], i), by simp [List.mk_mem_zipIdx_iff_getElem?], rfl⟩
      obtain ⟨g, _, hg⟩ := List.mem_map.1 (hperm.mem_iff.2 this)
      simp only [Prod.mk.injEq] at hg
      exact ⟨g.2, hg.2.symm⟩
    obtain ⟨rs, hrs⟩ : ∃ rs, mapE row seq = .ok rs := by
      clear hT hperm hgot T
      induction seq with
      | nil => exact ⟨[], rfl⟩
      | cons x l ih =>
        obtain ⟨v, hv⟩ := hall x (by simp)
        obtain ⟨rs, hr⟩ := ih (fun y hy => hall y (by simp [hy]))
        exact ⟨v :: rs, by simp [mapE, hv, hr]⟩
    refine ⟨rs, hrs, ?_⟩
    have hTr : T = rs.zipIdx.map fun p => (p.2, Except.ok p.1) := (mapE_iff_tasks row seq rs 0).1 hrs
    have hp2 : got.Perm (rs.zipIdx.map fun p => (p.2, p.1)) := by
      have h3 : (got.map fun g => (g.1, (Except.ok g.2 : Except Err α))).Perm
          ((rs.zipIdx.map fun p => (p.2, p.1)).map fun g => (g.1, (Except.ok g.2 : Except Err α))) := by
        rw [hTr] at hperm
        simpa [List.map_map, Function.comp_def] using hperm
      have h5 := h3.filterMap fun t => match t.2 with
        | .ok v => some (t.1, v)
        | .error _ => none
      simpa [List.filterMap_map, Function.comp_def] using h5
    have hlen : got.length = rs.length := by simpa using hp2.length_eq
    have hkeys : (got.map Prod.fst).Nodup := by
      have h4 := hp2.map Prod.fst
      rw [h4.nodup_iff, List.map_map]
      have : (rs.zipIdx.map (Prod.fst ∘ fun p : α × Nat => (p.2, p.1))) = List.range rs.length := by
        rw [show (Prod.fst ∘ fun p : α × Nat => (p.2, p.1)) = Prod.snd from rfl]
        simp [List.range_eq_range']
      rw [this]
      exact List.nodup_range
    have hfold : got.foldl (fun acc t => acc.set t.1 (some t.2)) (List.replicate got.length none) =
        (got.map fun t => (t.1, some t.2)).foldl (fun m e => m.set e.1 e.2)
          (List.replicate got.length (none : Option α)) := by
      rw [List.foldl_map]
    rw [hfold]
    apply List.ext_getElem?
    intro i
    by_cases hi : i < rs.length
    · have hmem : (i, some rs[i]) ∈ got.map fun t => (t.1, some t.2) := by
        rw [List.mem_map]
        refine ⟨(i, rs[i]), ?_, rfl⟩
        rw [hp2.mem_iff, List.mem_map]
        exact ⟨(rs[i], i), by simp [List.mk_mem_zipIdx_iff_getElem?], rfl⟩
      rw [foldl_set_mem _ _ (by simpa [List.map_map, Function.comp_def] using hkeys) i _ hmem
        (by simp; omega)]
      simp [hi]
    · rw [List.getElem?_eq_none (by rw [foldl_set_length]; simp; omega),
        List.getElem?_eq_none (by simp; omega)]
  unfold rayRows
  cases hg : mapE (fun t : Nat × Except Err α => match t.2 with
      | .ok v => Except.ok (t.1, v)
      | .error e => .error e) (rayIter pick T.length T) with
  | error e =>
    simp only [bind, Except.bind, reduceCtorEq, false_iff]
    intro hseq
    have hTr : T = rows.zipIdx.map fun p => (p.2, Except.ok p.1) := (mapE_iff_tasks row seq rows 0).1 hseq
    -- every collected task is a success
    have : ∃ got : List (Nat × α), rayIter pick T.length T = got.map fun g => (g.1, (Except.ok g.2 : Except Err α)) := by
      have hsub : ∀ t ∈ rayIter pick T.length T, ∃ g : Nat × α, t = (g.1, Except.ok g.2) := by
        intro t ht
        have := hperm.mem_iff.1 ht
        rw [hTr] at this
        obtain ⟨p, _, rfl⟩ := List.mem_map.1 this
        exact ⟨(p.2, p.1), rfl⟩
      revert hsub
      generalize rayIter pick T.length T = L
      intro hsub
      induction L with
      | nil => exact ⟨[], rfl⟩
      | cons t L ih =>
        obtain ⟨g, rfl⟩ := hsub t (by simp)
        obtain ⟨got, rfl⟩ := ih fun t ht => hsub t (by simp [ht])
        exact ⟨g :: got, rfl⟩
    obtain ⟨got, hgot⟩ := this
    rw [mapE_tasks.2 hgot] at hg
    cases hg
  | ok got =>
    obtain ⟨rs, hrs, hf⟩ := key got hg
    simp only [bind, Except.bind, hf, hrs]
    exact iff_of_eq (congrArg (· = Except.ok rows) (mapE_opt rs))

theorem gridRows_iff (cores : Int) (pick : Nat → Nat) (row : K → Except Err (NDArr (Fl K)))
    (seq : List K) (rows : List (NDArr (Fl K))) :
    gridRows cores pick row seq = .ok rows ↔ mapE row seq = .ok rows := by
  unfold gridRows
  split
  · rfl
  · exact rayRows_iff pick row seq rows

/-! ### sums with NaN -/

theorem fsum_cons (a : Fl K) (l : List (Fl K)) : fsum (a :: l) = Fl.add a (fsum l) := rfl

theorem fladd_comm (a b : Fl K) : Fl.add a b = Fl.add b a := by
  cases a <;> cases b <;> simp [Fl.add, Fl.lift2, add_comm]

theorem fladd_assoc (a b c : Fl K) : Fl.add (Fl.add a b) c = Fl.add a (Fl.add b c) := by
  cases a <;> cases b <;> cases c <;> simp [Fl.add, Fl.lift2, add_assoc]

theorem fladd_zero (a : Fl K) : Fl.add a (some 0) = a := by
  cases a <;> simp [Fl.add, Fl.lift2]

theorem zero_fladd (a : Fl K) : Fl.add (some 0) a = a := by
  cases a <;> simp [Fl.add, Fl.lift2]

theorem foldl_add_fsum (l : List (Fl K)) (a : Fl K) : l.foldl Fl.add a = Fl.add a (fsum l) := by
  induction l generalizing a with
  | nil => exact (fladd_zero a).symm
  | cons b l ih => rw [List.foldl_cons, ih, fsum_cons, fladd_assoc]

/-- a sum of sums -/
theorem fsum_map_add {ι : Type} (l : List ι) (f g : ι → Fl K) :
    fsum (l.map fun i => Fl.add (f i) (g i)) = Fl.add (fsum (l.map f)) (fsum (l.map g)) := by
  induction l with
  | nil => simp [fsum, Fl.add, Fl.lift2]
  | cons a l ih =>
    simp only [List.map_cons, fsum_cons, ih]
    rw [fladd_assoc, fladd_assoc]
    congr 1
    rw [← fladd_assoc, fladd_comm (g a), fladd_assoc]

theorem fsum_map_sub {ι : Type} (l : List ι) (f g : ι → Fl K) :
    fsum (l.map fun i => Fl.sub (f i) (g i)) = Fl.sub (fsum (l.map f)) (fsum (l.map g)) := by
  induction l with
  | nil => simp [fsum, Fl.sub, Fl.lift2]
  | cons a l ih =>
    simp only [List.map_cons, fsum_cons, ih]
    cases f a <;> cases g a <;> cases fsum (l.map f) <;> cases fsum (l.map g) <;>
      simp [Fl.sub, Fl.add, Fl.lift2]
    ring

theorem flmul_add (a b : Fl K) (c : K) :
    Fl.mul (Fl.add a b) (some c) = Fl.add (Fl.mul a (some c)) (Fl.mul b (some c)) := by
  cases a <;> cases b <;> simp [Fl.mul, Fl.add, Fl.lift2, add_mul]

theorem flmul_sub (a b : Fl K) (c : K) :
    Fl.mul (Fl.sub a b) (some c) = Fl.sub (Fl.mul a (some c)) (Fl.mul b (some c)) := by
  cases a <;> cases b <;> simp [Fl.mul, Fl.sub, Fl.lift2, sub_mul]

/-! ### the scratch file -/

/-- position `(i, j)` of the file for rows of `size` elements -/
theorem rowWrites_keys (size : Nat) (rows : List (NDArr (Fl K))) (s : List Nat)
    (hs : s.prod = size) (hr : ∀ r ∈ rows, r.shape = s) (st : Nat) :
    ((rows.zipIdx st).flatMap fun p => rowWrites size p.2 p.1).map Prod.fst =
      (List.range (rows.length * size)).map fun t => st * size + t := by
  induction rows generalizing st with
  | nil => simp
  | cons r rows ih =>
    have hlen : r.data.length = size := by rw [r.wf, hr r (by simp), hs]
    rw [List.zipIdx_cons, List.flatMap_cons, List.map_append, ih (fun x hx => hr x (by simp [hx]))]
    have h1 : (rowWrites size st r).map Prod.fst = (List.range size).map fun t => st * size + t := by
      unfold rowWrites
      rw [List.map_map]
      have : (Prod.fst ∘ fun p : Fl K × Nat => (st * size + p.2, p.1)) =
          (fun t => st * size + t) ∘ Prod.snd := rfl
      rw [this, ← List.map_map]
      congr 1
      simp [hlen, List.range_eq_range']
    rw [h1, List.length_cons, show (rows.length + 1) * size = size + rows.length * size by ring,
      List.range_add, List.map_append, List.map_map]
    congr 1
    apply List.map_congr_left
    intro t _
    simp only [Function.comp]
    ring

theorem rowWrites_mem {size : Nat} {rows : List (NDArr (Fl K))} {s : List Nat}
    (hs : s.prod = size) (hr : ∀ r ∈ rows, r.shape = s) {i j : Nat} (hi : i < rows.length)
    (hj : j < size) :
    ∃ v, rows[i].data[j]? = some v ∧
      (i * size + j, v) ∈ (rows.zipIdx.flatMap fun p => rowWrites size p.2 p.1) := by
  have hlen : rows[i].data.length = size := by rw [rows[i].wf, hr _ (List.getElem_mem hi), hs]
  refine ⟨rows[i].data[j], by simp [hlen, hj], ?_⟩
  rw [List.mem_flatMap]
  refine ⟨(rows[i], i), by simp [List.mk_mem_zipIdx_iff_getElem?], ?_⟩
  unfold rowWrites
  rw [List.mem_map]
  exact ⟨(rows[i].data[j], j), by simp [List.mk_mem_zipIdx_iff_getElem?], rfl⟩

/-- after all writes, in any order, the file holds the rows -/
theorem fileRow_spec {rows : List (NDArr (Fl K))} {s : List Nat} (hr : ∀ r ∈ rows, r.shape = s)
    {init : List (Fl K)} (hinit : init.length = rows.length * s.prod)
    {ev : List (Nat × Fl K)} (hev : ev.Perm (rows.zipIdx.flatMap fun p => rowWrites s.prod p.2 p.1))
    {i : Nat} (hi : i < rows.length) :
    fileRow s (applyWrites init ev) i = .ok rows[i] := by
  have hkeys : (ev.map Prod.fst).Nodup := by
    rw [(hev.map Prod.fst).nodup_iff, rowWrites_keys s.prod rows s rfl hr 0]
    simp only [Nat.zero_mul, Nat.zero_add, List.map_id']
    exact List.nodup_range
  have hd : ((applyWrites init ev).drop (i * s.prod)).take s.prod = rows[i].data := by
    have hlen : rows[i].data.length = s.prod := by rw [rows[i].wf, hr _ (List.getElem_mem hi)]
    apply List.ext_getElem?
    intro j
    by_cases hj : j < s.prod
    · rw [List.getElem?_take_of_lt hj, List.getElem?_drop]
      obtain ⟨v, hv, hm⟩ := rowWrites_mem (rows := rows) rfl hr hi hj
      rw [hv]
      apply foldl_set_mem ev init hkeys _ _ (hev.mem_iff.2 hm)
      rw [hinit]
      calc i * s.prod + j < i * s.prod + s.prod := by omega
        _ = (i + 1) * s.prod := by ring
        _ ≤ rows.length * s.prod := Nat.mul_le_mul_right _ hi
    · rw [List.getElem?_eq_none (by simp; omega), List.getElem?_eq_none (by omega)]
  unfold fileRow
  simp only [hd]
  have h1 : rows[i].data.length = s.prod := by rw [rows[i].wf, hr _ (List.getElem_mem hi)]
  rw [dif_pos h1]
  congr 1
  have h2 := hr _ (List.getElem_mem hi)
  have hgen : ∀ (r : NDArr (Fl K)) (hh : r.data.length = s.prod), r.shape = s →
      (⟨s, r.data, hh⟩ : NDArr (Fl K)) = r := by
    rintro ⟨sh, dd, wf⟩ hh rfl
    rfl
  exact hgen _ _ h2

/-- the accumulation loop -/
theorem memmapSumMul_spec {rows : List (NDArr (Fl K))} {s : List Nat} (hr : ∀ r ∈ rows, r.shape = s)
    {file : List (Fl K)} (hf : ∀ i (hi : i < rows.length), fileRow s file i = .ok rows[i])
    (start : Nat) (mul : List K) (hb : start + mul.length ≤ rows.length) :
    memmapSumMul s file start mul = .ok (ofFn s fun k =>
      fsum ((List.range mul.length).map fun i =>
        Fl.mul ((rows.getD (start + i) default).get k) (some (mul.getD i 0)))) := by
  have gen : ∀ (l : List K) (st : Nat) (out : NDArr (Fl K)), out.shape = s →
      start + st + l.length ≤ rows.length →
      (l.zipIdx st).foldl (fun acc p => (do
        let out ← acc
        let r ← fileRow s file (start + p.2)
        zipWith (fun a b => Fl.add a (Fl.mul b (some p.1))) out r : Except Err (NDArr (Fl K)))) (.ok out) =
      .ok (ofFn s fun k => Fl.add (out.get k) (fsum ((List.range l.length).map fun i =>
        Fl.mul ((rows.getD (start + (st + i)) default).get k) (some (l.getD i 0))))) := by
    intro l
    induction l with
    | nil =>
      intro st out hs _
      simp only [List.zipIdx_nil, List.foldl_nil]
      congr 1
      rw [eq_ofFn out, hs]
      apply ext_get (by rfl)
      intro k hk
      replace hk : InB s k := hk
      rw [get_ofFn _ hk, get_ofFn _ hk]
      simp only [List.length_nil, List.range_zero, List.map_nil]
      rw [get_ofFn _ hk]
      exact (fladd_zero _).symm
    | cons m l ih =>
      intro st out hs hb
      simp only [List.length_cons] at hb
      have hi : start + st < rows.length := by omega
      have hrow : rows.getD (start + st) default = rows[start + st] := by
        rw [List.getD_eq_getElem?_getD, List.getElem?_eq_getElem hi]; rfl
      have hz : zipWith (fun a b => Fl.add a (Fl.mul b (some m))) out rows[start + st] =
          .ok (ofFn s fun k => Fl.add (out.get k) (Fl.mul (rows[start + st].get k) (some m))) := by
        rw [zipWith_ok _ _ _ (by rw [hs, hr _ (List.getElem_mem hi)]), hs]
      rw [List.zipIdx_cons, List.foldl_cons]
      simp only [hf _ hi, bind, Except.bind, hz]
      have := ih (st + 1) (ofFn s fun k => Fl.add (out.get k) (Fl.mul (rows[start + st].get k) (some m)))
        rfl (by omega)
      simp only [bind, Except.bind] at this
      rw [this]
      congr 1
      apply ext_get (by rfl)
      intro k hk
      replace hk : InB s k := hk
      rw [get_ofFn _ hk, get_ofFn _ hk, get_ofFn _ hk]
      rw [List.length_cons, List.range_succ_eq_map, List.map_cons, fsum_cons, List.map_map, fladd_assoc]
      congr 1
      simp only [List.getD_cons_zero, Nat.add_zero, hrow]
      congr 3
      funext i
      simp only [Function.comp, List.getD_cons_succ]
      congr 4
      omega
  have := gen mul 0 (full s (some 0)) rfl (by omega)
  unfold memmapSumMul
  rw [this]
  congr 1
  apply ext_get (by rfl)
  intro k hk
  replace hk : InB s k := hk
  rw [get_ofFn _ hk, get_ofFn _ hk, get_full _ hk, zero_fladd]
  simp

/-! ### both modes compute the same thing at every position -/

/-- the half sum over the intervals at one position -/
def halfSum (n : Nat) (g : Fl K → Fl K → Fl K) (w : Nat → K) (a : Nat → Fl K) : Fl K :=
  Fl.mul (some (1 / 2)) (fsum ((List.range (n - 1)).map fun i => Fl.mul (g (a (i + 1)) (a i)) (some (w i))))

/-- the result of an integration at a position where the rows have the values `a i` -/
def combineAt (kind : Kind) (seq : List K) (a : Nat → Fl K) : Fl K :=
  let x := fun i => seq.getD i 0
  match kind with
  | .crps => halfSum seq.length Fl.add (fun i => x (i + 1) - x i) a
  | .mean => halfSum seq.length Fl.sub (fun i => x (i + 1) + x i) a
  | .variance => Fl.sub (halfSum seq.length Fl.sub (fun i => x (i + 1) * x (i + 1) + x i * x i) a)
      (Fl.sq (halfSum seq.length Fl.sub (fun i => x (i + 1) + x i) a))

theorem stack0_rows {rows : List (NDArr (Fl K))} {s : List Nat} (hne : rows ≠ [])
    (hr : ∀ r ∈ rows, r.shape = s) :
    ∃ A, stack0 rows = .ok A ∧ A.shape = rows.length :: s ∧
      ∀ i k, i < rows.length → InB s k → A.get (i :: k) = (rows.getD i default).get k := by
  cases rows with
  | nil => exact absurd rfl hne
  | cons c cs =>
    have hc := hr c (by simp)
    have hcs : ∀ d ∈ cs, d.shape = c.shape := fun d hd => by rw [hr d (by simp [hd]), hc]
    refine ⟨_, by simp only [stack0]; rw [if_pos hcs], by simp [hc], ?_⟩
    intro i k hi hk
    have hb : InB ((c :: cs).length :: c.shape) (i :: k) := by
      rw [hc]; exact List.Forall₂.cons hi hk
    rw [get_ofFn _ hb]
    simp only
    rw [List.getD_eq_getElem?_getD, List.getD_eq_getElem?_getD, List.getElem?_eq_getElem hi]
    rfl

theorem stack0_shape {rows : List (NDArr (Fl K))} {A : NDArr (Fl K)} {n : Nat} {s : List Nat}
    (h : stack0 rows = .ok A) (hs : A.shape = n :: s) : ∀ r ∈ rows, r.shape = s := by
  cases rows with
  | nil => cases h
  | cons c cs =>
    simp only [stack0] at h
    split at h
    · rename_i hcs
      cases h
      simp only [List.length_cons, ofFn, List.cons.injEq] at hs
      intro r hr
      rcases List.mem_cons.1 hr with rfl | hr
      · exact hs.2
      · rw [hcs r hr]; exact hs.2
    · cases h

theorem sumAxis0_spec {rows : List (NDArr (Fl K))} {s : List Nat} {A : NDArr (Fl K)} {n : Nat}
    (hn : rows.length = n)
    (hA : ∀ i k, i < rows.length → InB s k → A.get (i :: k) = (rows.getD i default).get k)
    (g : Fl K → Fl K → Fl K) (w : Nat → K) :
    sumAxis0 s A n g w = ofFn s fun k => halfSum n g w fun i => (rows.getD i default).get k := by
  apply ext_get (by rfl)
  intro k hk
  replace hk : InB s k := hk
  unfold sumAxis0 halfSum
  rw [get_ofFn _ hk, get_ofFn _ hk]
  congr 2
  apply List.map_congr_left
  intro i hi
  have := List.mem_range.1 hi
  rw [hA _ _ (by omega) hk, hA _ _ (by omega) hk]

theorem combineRows_spec (kind : Kind) {seq : List K} {s : List Nat} {rows : List (NDArr (Fl K))}
    (hne : rows ≠ []) (hlen : rows.length = seq.length) (hr : ∀ r ∈ rows, r.shape = s) :
    combineRows kind seq s rows =
      .ok (ofFn s fun k => combineAt kind seq fun i => (rows.getD i default).get k) := by
  obtain ⟨A, hA, hsh, hget⟩ := stack0_rows hne hr
  unfold combineRows
  simp only [hA, bind, Except.bind]
  rw [if_pos (by rw [hsh, hlen])]
  cases kind with
  | crps => simp only [sumAxis0_spec hlen hget]; rfl
  | mean => simp only [sumAxis0_spec hlen hget]; rfl
  | variance =>
    simp only [sumAxis0_spec hlen hget]
    rw [zipWith_ok _ _ _ (by rfl)]
    congr 1
    apply ext_get (by rfl)
    intro k hk
    replace hk : InB s k := hk
    have hshape : ∀ g : List Nat → Fl K, (ofFn s g).shape = s := fun _ => rfl
    rw [hshape, get_ofFn _ hk, get_ofFn _ hk, get_map _ _ (by exact hk), get_ofFn _ hk, get_ofFn _ hk]
    rfl

theorem memmapPair_spec {rows : List (NDArr (Fl K))} {s : List Nat} (hr : ∀ r ∈ rows, r.shape = s)
    {file : List (Fl K)} (hf : ∀ i (hi : i < rows.length), fileRow s file i = .ok rows[i])
    (hne : rows ≠ []) (w : Nat → K) (op : Fl K → Fl K → Fl K) (hop : op = Fl.add ∨ op = Fl.sub) :
    memmapPair s file op ((List.range (rows.length - 1)).map w) =
      .ok (ofFn s fun k => halfSum rows.length op w fun i => (rows.getD i default).get k) := by
  have hpos : 0 < rows.length := List.length_pos_iff.2 hne
  unfold memmapPair
  rw [memmapSumMul_spec hr hf 1 _ (by simp; omega), memmapSumMul_spec hr hf 0 _ (by simp)]
  simp only [bind, Except.bind]
  rw [zipWith_ok _ _ _ (by rfl)]
  congr 1
  apply ext_get (by rfl)
  intro k hk
  replace hk : InB s k := hk
  have hshape : ∀ g : List Nat → Fl K, (ofFn s g).shape = s := fun _ => rfl
  rw [hshape, get_ofFn _ hk, get_ofFn _ hk, get_ofFn _ hk, get_ofFn _ hk]
  unfold halfSum
  congr 1
  have hw : ∀ i ∈ List.range (rows.length - 1),
      ((List.range (rows.length - 1)).map w).getD i 0 = w i := by
    intro i hi
    have := List.mem_range.1 hi
    simp [List.getD_eq_getElem?_getD, this]
  simp only [List.length_map, List.length_range, Nat.zero_add]
  have e : ∀ st : Nat, (List.range (rows.length - 1)).map (fun i =>
      Fl.mul ((rows.getD (st + i) default).get k)
        (some (((List.range (rows.length - 1)).map w).getD i 0))) =
      (List.range (rows.length - 1)).map (fun i =>
        Fl.mul ((rows.getD (st + i) default).get k) (some (w i))) :=
    fun st => List.map_congr_left fun i hi => by rw [hw i hi]
  have e0 := e 0
  simp only [Nat.zero_add] at e0
  rw [e 1, e0]
  rcases hop with rfl | rfl
  · simp only [flmul_add, Nat.add_comm 1]
    rw [fsum_map_add]
  · simp only [flmul_sub, Nat.add_comm 1]
    rw [fsum_map_sub]

theorem combineFile_spec (kind : Kind) {seq : List K} {s : List Nat} {rows : List (NDArr (Fl K))}
    (hne : rows ≠ []) (hlen : rows.length = seq.length) (hr : ∀ r ∈ rows, r.shape = s)
    {file : List (Fl K)} (hf : ∀ i (hi : i < rows.length), fileRow s file i = .ok rows[i]) :
    combineFile kind seq s file =
      .ok (ofFn s fun k => combineAt kind seq fun i => (rows.getD i default).get k) := by
  unfold combineFile
  rw [← hlen]
  cases kind with
  | crps =>
    simp only
    rw [memmapPair_spec hr hf hne (fun i => seq.getD (i + 1) 0 - seq.getD i 0) _ (Or.inl rfl), hlen]
    rfl
  | mean =>
    simp only
    rw [memmapPair_spec hr hf hne (fun i => seq.getD (i + 1) 0 + seq.getD i 0) _ (Or.inr rfl), hlen]
    rfl
  | variance =>
    simp only
    rw [memmapPair_spec hr hf hne (fun i => seq.getD (i + 1) 0 + seq.getD i 0) _ (Or.inr rfl),
      memmapPair_spec hr hf hne (fun i => seq.getD (i + 1) 0 * seq.getD (i + 1) 0 +
        seq.getD i 0 * seq.getD i 0) _ (Or.inr rfl), hlen]
    simp only [bind, Except.bind]
    rw [zipWith_ok _ _ _ (by rfl)]
    congr 1
    apply ext_get (by rfl)
    intro k hk
    replace hk : InB s k := hk
    have hshape : ∀ g : List Nat → Fl K, (ofFn s g).shape = s := fun _ => rfl
    rw [hshape, get_ofFn _ hk, get_ofFn _ hk, get_map _ _ (by exact hk), get_ofFn _ hk, get_ofFn _ hk]
    rfl

end Model
