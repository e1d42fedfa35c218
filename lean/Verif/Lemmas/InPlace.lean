import Verif.Spec.InPlace
import Verif.Lemmas.Natural
import Verif.Lemmas.Columns
import Verif.Lemmas.Axes

set_option linter.unusedSectionVars false

namespace Lemmas
open Np NDArr Model Spec

section
variable {α : Type} [Inhabited α]

theorem length_assign (b : List α) (ps : List (Option Nat)) (xs : List α) : (assign b ps xs).length = b.length := by
  induction ps generalizing b xs with
  | nil => simp [assign]
  | cons p ps ih =>
    cases xs with
    | nil => cases p <;> simp [assign]
    | cons x xs => cases p <;> simp [assign, ih]

theorem assign_other (b : List α) (ps : List (Option Nat)) (xs : List α) {q : Nat} (hq : some q ∉ ps) (d : α) :
    (assign b ps xs).getD q d = b.getD q d := by
  induction ps generalizing b xs with
  | nil => simp [assign]
  | cons p ps ih =>
    simp only [List.mem_cons, not_or] at hq
    cases xs with
    | nil => cases p <;> simp [assign]
    | cons x xs =>
      cases p with
      | none => simp only [assign]; exact ih b xs hq.2
      | some p =>
        simp only [assign]
        rw [ih _ xs hq.2]
        have hne : p ≠ q := fun h => hq.1 (by rw [h])
        simp [List.getD_eq_getElem?_getD, hne]

theorem assign_at (b : List α) (ps : List (Option Nat)) (xs : List α) (hnd : ps.Nodup) {r q : Nat}
    (hr : ps[r]? = some (some q)) (hx : r < xs.length) (hq : q < b.length) (d : α) :
    (assign b ps xs).getD q d = xs.getD r d := by
  induction ps generalizing b xs r with
  | nil => simp at hr
  | cons p ps ih =>
    have hp := (List.nodup_cons.1 hnd).1
    have hnd' := (List.nodup_cons.1 hnd).2
    cases xs with
    | nil => simp at hx
    | cons x xs =>
      cases r with
      | zero =>
        simp only [List.getElem?_cons_zero, Option.some.injEq] at hr
        subst hr
        simp only [assign]
        rw [assign_other _ _ _ hp]
        simp [List.getD_eq_getElem?_getD, hq]
      | succ r =>
        simp only [List.getElem?_cons_succ] at hr
        simp only [List.length_cons, Nat.add_lt_add_iff_right] at hx
        cases p with
        | none => simp only [assign]; rw [ih b xs hnd' hr hx hq]; simp
        | some p => simp only [assign]; rw [ih _ xs hnd' hr hx (by simpa using hq)]; simp

theorem getD_modify (h : Mem α) (v b : Nat) (g : List α → List α) (hg : v < h.length) :
    (h.modify v g).getD b [] = if b = v then g (h.getD b []) else h.getD b [] := by
  rw [List.getD_eq_getElem?_getD, List.getElem?_modify, List.getD_eq_getElem?_getD]
  by_cases hb : b = v
  · subst hb
    rw [if_pos rfl, List.getElem?_eq_getElem hg]
    simp
  · rw [if_neg hb]
    simp [Ne.symm hb]

theorem length_setCol (h : Mem α) (v : View) (i : Nat) (xs : List α) : (h.setCol v i xs).length = h.length := by
  simp [Mem.setCol]

theorem bufLength_setCol (h : Mem α) (v : View) (i : Nat) (xs : List α) (b : Nat) :
    ((h.setCol v i xs).getD b []).length = (h.getD b []).length := by
  by_cases hv : v.buf < h.length
  · unfold Mem.setCol
    rw [getD_modify _ _ _ _ hv]
    split
    · rw [length_assign]
    · rfl
  · have : h.setCol v i xs = h := by
      unfold Mem.setCol
      exact List.modify_eq_self (by omega)
    rw [this]

/-- the column's places are places of the array -/
theorem mem_col {v : View} {R C i : Nat} (hs : v.pos.shape = [R, C]) {p : Option Nat}
    (h : p ∈ v.pos.col i) : ∃ r, r < R ∧ v.pos.get [r, i] = p := by
  simp only [col, hs, List.getD_cons_zero, List.mem_map, List.mem_range] at h
  exact h

theorem get_mem (a : NDArr α) {k : List Nat} (hk : InB a.shape k) : a.get k ∈ a.data := by
  rw [data_eq]
  exact List.mem_map.2 ⟨k, mem_allIdx.2 hk, rfl⟩

theorem get_inj {a : NDArr α} (hnd : a.data.Nodup) {i j : List Nat} (hi : InB a.shape i)
    (hj : InB a.shape j) (h : a.get i = a.get j) : i = j := by
  rw [data_eq] at hnd
  exact List.inj_on_of_nodup_map hnd (mem_allIdx.2 hi) (mem_allIdx.2 hj) h

theorem nodup_of_inj {a : NDArr α}
    (h : ∀ i j, InB a.shape i → InB a.shape j → a.get i = a.get j → i = j) : a.data.Nodup := by
  rw [data_eq]
  exact (nodup_allIdx _).map_on fun i hi j hj => h i j (mem_allIdx.1 hi) (mem_allIdx.1 hj)

theorem inB2 {R C r c : Nat} : InB [R, C] [r, c] ↔ r < R ∧ c < C := by
  constructor
  · intro h
    cases h with
    | cons h1 h2 => cases h2 with
      | cons h3 _ => exact ⟨h1, h3⟩
  · rintro ⟨h1, h2⟩
    exact List.Forall₂.cons h1 (List.Forall₂.cons h2 List.Forall₂.nil)

theorem col_nodup {v : View} {R C i : Nat} (hs : v.pos.shape = [R, C]) (hi : i < C) (hnd : v.pos.data.Nodup) :
    (v.pos.col i).Nodup := by
  unfold col
  rw [hs]
  refine List.nodup_range.map_on fun r hr r' hr' h => ?_
  simp only [List.getD_cons_zero, List.mem_range] at hr hr'
  have := get_inj hnd (by rw [hs]; exact inB2.2 ⟨hr, hi⟩) (by rw [hs]; exact inB2.2 ⟨hr', hi⟩) h
  simpa using this

/-- a column assignment changes only the places of that column -/
theorem setCol_other (h : Mem α) (v : View) (i : Nat) (xs : List α) {b q : Nat}
    (hp : b ≠ v.buf ∨ some q ∉ v.pos.col i) (hv : v.buf < h.length) :
    (h.setCol v i xs).at b (some q) = h.at b (some q) := by
  unfold Mem.setCol Mem.at
  dsimp only
  rw [getD_modify _ _ _ _ hv]
  split
  · rename_i hb
    exact assign_other _ _ _ (hp.resolve_left (fun h => h hb)) _
  · rfl

theorem setCol_at (h : Mem α) (v : View) {R C i : Nat} (hs : v.pos.shape = [R, C]) (hi : i < C) (hf : Fits h v)
    (xs : List α) (hx : xs.length = R) {r : Nat} (hr : r < R) :
    (h.setCol v i xs).at v.buf (v.pos.get [r, i]) = xs.getD r default := by
  have hk : InB v.pos.shape [r, i] := by rw [hs]; exact inB2.2 ⟨hr, hi⟩
  obtain ⟨q, hq, hql⟩ := hf.inside _ (get_mem _ hk)
  unfold Mem.setCol Mem.at
  rw [hq]
  dsimp only
  rw [getD_modify _ _ _ _ hf.buf, if_pos rfl]
  refine assign_at _ _ _ (col_nodup hs hi hf.nodup) (r := r) ?_ (by omega) hql _
  unfold col
  rw [List.getElem?_map, hs, List.getD_cons_zero, List.getElem?_range hr, Option.map_some, hq]

theorem fits_setCol {h : Mem α} {w : View} (hf : Fits h w) (v : View) (i : Nat) (xs : List α) :
    Fits (h.setCol v i xs) w where
  buf := by rw [length_setCol]; exact hf.buf
  inside := by intro p hp; rw [bufLength_setCol]; exact hf.inside p hp
  nodup := hf.nodup

theorem read_get (h : Mem α) (v : View) {k : List Nat} (hk : InB v.pos.shape k) :
    (h.read v).get k = h.at v.buf (v.pos.get k) := by
  unfold Mem.read
  rw [get_map _ _ hk]

@[simp] theorem read_shape (h : Mem α) (v : View) : (h.read v).shape = v.pos.shape := rfl

/-- two arrays that are apart: assigning to a column of one leaves the other -/
theorem setCol_apart {h : Mem α} {v w : View} {R C i : Nat} (hs : v.pos.shape = [R, C]) (hi : i < C) (hv : Fits h v)
    (hw : Fits h w) (ha : Apart v w) (xs : List α) {k : List Nat} (hk : InB w.pos.shape k) :
    (h.setCol v i xs).at w.buf (w.pos.get k) = h.at w.buf (w.pos.get k) := by
  obtain ⟨q, hq, -⟩ := hw.inside _ (get_mem _ hk)
  rw [hq]
  refine setCol_other h v i xs ?_ hv.buf
  by_cases hb : w.buf = v.buf
  · refine Or.inr fun hc => ?_
    obtain ⟨r, hr, he⟩ := mem_col hs hc
    have h1 : v.pos.get [r, i] ∈ v.pos.data := get_mem _ (by rw [hs]; exact inB2.2 ⟨hr, hi⟩)
    rw [he] at h1
    exact (ha.resolve_left (fun h => h hb.symm)) _ h1 (by rw [← hq]; exact get_mem _ hk)
  · exact Or.inl hb

/-- assigning to one column leaves the others -/
theorem setCol_col {h : Mem α} {v : View} {R C i : Nat} (hs : v.pos.shape = [R, C]) (hi : i < C) (hv : Fits h v)
    (xs : List α) {r c : Nat} (hr : r < R) (hc : c < C) (hne : c ≠ i) :
    (h.setCol v i xs).at v.buf (v.pos.get [r, c]) = h.at v.buf (v.pos.get [r, c]) := by
  have hk : InB v.pos.shape [r, c] := by rw [hs]; exact inB2.2 ⟨hr, hc⟩
  obtain ⟨q, hq, -⟩ := hv.inside _ (get_mem _ hk)
  rw [hq]
  refine setCol_other h v i xs (Or.inr fun hm => ?_) hv.buf
  obtain ⟨r', hr', he⟩ := mem_col hs hm
  have := get_inj hv.nodup (by rw [hs]; exact inB2.2 ⟨hr', hi⟩) hk (he.trans hq.symm)
  simp only [List.cons.injEq, and_true] at this
  exact hne this.2.symm

theorem apart_symm {v e : View} (h : Apart v e) : Apart e v :=
  h.elim (fun h => Or.inl h.symm) fun h => Or.inr fun p hp hq => h p hq hp

end

variable {K : Type} [Field K] [LinearOrder K] [FloorSemiring K]

/-- what one round of the sorting loop does -/
theorem sortColumn_spec {argsort : Nat → List (Fl K) → List Nat} (hargs : ∀ c l, IsArgsort l (argsort c l))
    {h : Mem (Fl K)} {v e : View} {R C i : Nat} (hvs : v.pos.shape = [R, C]) (hes : e.pos.shape = [R, C]) (hi : i < C)
    (hv : Fits h v) (he : Fits h e) (ha : Apart v e) :
    (∀ w, Fits h w → Fits (sortColumn argsort v e h i) w) ∧
    (∀ r c, r < R → c < C → ((sortColumn argsort v e h i).read v).get [r, c] =
      (h.read v).get [if c = i then (argsort i ((h.read v).col i)).getD r 0 else r, c]) ∧
    (∀ r c, r < R → c < C → ((sortColumn argsort v e h i).read e).get [r, c] =
      (h.read e).get [if c = i then (argsort i ((h.read v).col i)).getD r 0 else r, c]) ∧
    ∀ b q, ¬ View.holds v b q → ¬ View.holds e b q → (sortColumn argsort v e h i).at b (some q) = h.at b (some q) := by
  set idx := argsort i ((h.read v).col i) with hidx
  have hperm := (hargs i ((h.read v).col i)).1
  rw [← hidx] at hperm
  have hcl : ((h.read v).col i).length = R := by simp [col, hvs]
  rw [hcl] at hperm
  have hil : idx.length = R := by simpa using hperm.length_eq
  have hlt : ∀ r, r < R → idx.getD r 0 < R := by
    intro r hr
    have hm : idx.getD r 0 ∈ idx := by
      rw [List.getD_eq_getElem?_getD, List.getElem?_eq_getElem (by omega)]
      exact List.getElem_mem _
    simpa using hperm.mem_iff.1 hm
  have hmapD : ∀ (g : Nat → Fl K) (r : Nat), r < R → (idx.map g).getD r default = g (idx.getD r 0) := by
    intro g r hr
    rw [List.getD_eq_getElem?_getD, List.getElem?_map, List.getElem?_eq_getElem (by omega), List.getD_eq_getElem?_getD,
      List.getElem?_eq_getElem (by omega)]
    rfl
  have hvk : ∀ {r c}, r < R → c < C → InB v.pos.shape [r, c] := fun h1 h2 => by rw [hvs]; exact inB2.2 ⟨h1, h2⟩
  have hek : ∀ {r c}, r < R → c < C → InB e.pos.shape [r, c] := fun h1 h2 => by rw [hes]; exact inB2.2 ⟨h1, h2⟩
  unfold sortColumn
  simp only [← hidx]
  set h1 := h.setCol v i (idx.map fun r => (h.read v).get [r, i]) with hh1
  have hv1 : Fits h1 v := fits_setCol hv _ _ _
  have he1 : Fits h1 e := fits_setCol he _ _ _
  have hre : ∀ {r c}, r < R → c < C → (h1.read e).get [r, c] = (h.read e).get [r, c] := by
    intro r c hr hc
    rw [read_get _ _ (hek hr hc), read_get _ _ (hek hr hc), hh1]
    exact setCol_apart hvs hi hv he ha _ (hek hr hc)
  refine ⟨fun w hw => fits_setCol (fits_setCol hw _ _ _) _ _ _, ?_, ?_, ?_⟩
  · intro r c hr hc
    rw [read_get _ _ (hvk hr hc), setCol_apart hes hi he1 hv1 (apart_symm ha) _ (hvk hr hc)]
    by_cases hci : c = i
    · subst hci
      rw [if_pos rfl, hh1, setCol_at h v hvs hc hv _ (by simp [hil]) hr, hmapD _ _ hr]
    · rw [if_neg hci, hh1, setCol_col hvs hi hv _ hr hc hci, read_get _ _ (hvk hr hc)]
  · intro r c hr hc
    rw [read_get _ _ (hek hr hc)]
    by_cases hci : c = i
    · subst hci
      rw [if_pos rfl, setCol_at h1 e hes hc he1 _ (by simp [hil]) hr, hmapD _ _ hr, hre (hlt r hr) hc]
    · rw [if_neg hci, setCol_col hes hi he1 _ hr hc hci, ← read_get _ _ (hek hr hc), hre hr hc]
  · intro b q hb hb'
    have hcol : ∀ {w : View}, w.pos.shape = [R, C] → ¬ View.holds w b q → b ≠ w.buf ∨ some q ∉ w.pos.col i := by
      intro w hws hw
      by_cases hbb : b = w.buf
      · refine Or.inr fun hm => hw ⟨hbb, ?_⟩
        obtain ⟨r, hr, he⟩ := mem_col hws hm
        rw [← he]
        exact get_mem _ (by rw [hws]; exact inB2.2 ⟨hr, hi⟩)
      · exact Or.inl hbb
    rw [setCol_other _ _ _ _ (hcol hes hb') he1.buf, hh1, setCol_other _ _ _ _ (hcol hvs hb) hv.buf]

/-- what the sorting loop does after `n` columns -/
theorem sortLoop_spec {argsort : Nat → List (Fl K) → List Nat} (hargs : ∀ c l, IsArgsort l (argsort c l))
    {h : Mem (Fl K)} {v e : View} {R C : Nat} (hvs : v.pos.shape = [R, C]) (hes : e.pos.shape = [R, C])
    (hv : Fits h v) (he : Fits h e) (ha : Apart v e) (n : Nat) (hn : n ≤ C) :
    (∀ w, Fits h w → Fits ((List.range n).foldl (sortColumn argsort v e) h) w) ∧
    (∀ r c, r < R → c < C → (((List.range n).foldl (sortColumn argsort v e) h).read v).get [r, c] =
      (h.read v).get [if c < n then (argsort c ((h.read v).col c)).getD r 0 else r, c]) ∧
    (∀ r c, r < R → c < C → (((List.range n).foldl (sortColumn argsort v e) h).read e).get [r, c] =
      (h.read e).get [if c < n then (argsort c ((h.read v).col c)).getD r 0 else r, c]) ∧
    ∀ b q, ¬ View.holds v b q → ¬ View.holds e b q →
      ((List.range n).foldl (sortColumn argsort v e) h).at b (some q) = h.at b (some q) := by
  induction n with
  | zero => simp
  | succ n ih =>
    obtain ⟨i1, i2, i3, i4⟩ := ih (by omega)
    rw [List.range_succ, List.foldl_append]
    simp only [List.foldl_cons, List.foldl_nil]
    set g := (List.range n).foldl (sortColumn argsort v e) h with hg
    obtain ⟨j1, j2, j3, j4⟩ := sortColumn_spec hargs hvs hes (show n < C by omega) (i1 v hv) (i1 e he) ha
    have hcol : (g.read v).col n = (h.read v).col n := by
      unfold col
      simp only [read_shape, hvs, List.getD_cons_zero]
      apply List.map_congr_left
      intro r hr
      rw [i2 r n (List.mem_range.1 hr) (by omega), if_neg (by omega)]
    have hlt : ∀ r, r < R → (argsort n ((h.read v).col n)).getD r 0 < R := by
      intro r hr
      have hp := (hargs n ((h.read v).col n)).1
      have hl : ((h.read v).col n).length = R := by simp [col, hvs]
      rw [hl] at hp
      have hll : (argsort n ((h.read v).col n)).length = R := by simpa using hp.length_eq
      have hm : (argsort n ((h.read v).col n)).getD r 0 ∈ argsort n ((h.read v).col n) := by
        rw [List.getD_eq_getElem?_getD, List.getElem?_eq_getElem (by omega)]
        exact List.getElem_mem _
      simpa using hp.mem_iff.1 hm
    refine ⟨fun w hw => j1 w (i1 w hw), ?_, ?_, fun b q h1 h2 => (j4 b q h1 h2).trans (i4 b q h1 h2)⟩
    · intro r c hr hc
      rw [j2 r c hr hc, hcol]
      by_cases hcn : c = n
      · subst hcn
        rw [if_pos rfl, i2 _ _ (hlt r hr) hc, if_neg (by omega), if_pos (by omega)]
      · rw [if_neg hcn, i2 _ _ hr hc]
        by_cases hlt' : c < n
        · rw [if_pos hlt', if_pos (by omega)]
        · rw [if_neg hlt', if_neg (by omega)]
    · intro r c hr hc
      rw [j3 r c hr hc, hcol]
      by_cases hcn : c = n
      · subst hcn
        rw [if_pos rfl, i3 _ _ (hlt r hr) hc, if_neg (by omega), if_pos (by omega)]
      · rw [if_neg hcn, i3 _ _ hr hc]
        by_cases hlt' : c < n
        · rw [if_pos hlt', if_pos (by omega)]
        · rw [if_neg hlt', if_neg (by omega)]

/-! ### moving axes permutes the places -/

section
variable {α : Type} [Inhabited α]

theorem permute_idx_perm {s p : List Nat} (hp : p.Perm (List.range s.length)) :
    ((allIdx s).map fun i => p.map (i.getD · 0)).Perm (allIdx (p.map (s.getD · 0))) := by
  have hmem : ∀ x, x ∈ p ↔ x < s.length := fun x => by rw [hp.mem_iff]; simp
  have hnd : ((allIdx s).map fun i => p.map (i.getD · 0)).Nodup := by
    refine (nodup_allIdx s).map_on fun i hi j hj h => ?_
    have hi' := (mem_allIdx.1 hi).length
    have hj' := (mem_allIdx.1 hj).length
    apply List.ext_getElem (by omega)
    intro n h1 h2
    have hn : n ∈ p := (hmem n).2 (by omega)
    have := List.map_inj_left.1 h n hn
    rw [List.getD_eq_getElem?_getD, List.getD_eq_getElem?_getD, List.getElem?_eq_getElem h1,
      List.getElem?_eq_getElem h2] at this
    simpa using this
  refine (List.subperm_of_subset hnd ?_).perm_of_length_le ?_
  · intro k hk
    obtain ⟨i, hi, rfl⟩ := List.mem_map.1 hk
    exact mem_allIdx.2 (inB_permute (mem_allIdx.1 hi) fun x hx => (hmem x).1 hx)
  · rw [List.length_map, length_allIdx, length_allIdx, (hp.map (s.getD · 0)).prod_eq]
    have : (List.range s.length).map (s.getD · 0) = s := by
      apply List.ext_getElem (by simp)
      intro n h1 h2
      simp [List.getD_eq_getElem?_getD, h2]
    rw [this]

theorem transpose_data (a : NDArr α) {p : List Nat} (hp : p.Perm (List.range a.shape.length)) :
    (a.transpose p).data.Perm a.data := by
  rw [data_eq, data_eq a, shape_transpose]
  refine ((permute_idx_perm hp).map _).symm.trans ?_
  rw [List.map_map]
  exact List.Perm.of_eq (List.map_congr_left fun i hi => get_transpose a hp (mem_allIdx.1 hi))

theorem moveaxis_data {a b : NDArr α} {s d : Int} (h : a.moveaxis s d = .ok b) : b.data.Perm a.data := by
  unfold moveaxis at h
  simp only [bind, Except.bind] at h
  split at h
  · cases h
  · rename_i x hx
    split at h
    · cases h
    · rename_i y hy
      cases h
      have hlt : ∀ {ax : Int} {n : Nat}, normAxis a.ndim ax = .ok n → n < a.ndim := by
        intro ax n hn
        unfold normAxis at hn
        split at hn
        · cases hn; split <;> omega
        · cases hn
      exact transpose_data a (moveOrder_perm (hlt hx) (hlt hy))

theorem moveLoop_data {l : List Int} {t : Nat} {a b : NDArr α} {t' : Nat} (h : moveLoop l t a = .ok (b, t')) :
    b.data.Perm a.data := by
  induction l generalizing t a with
  | nil => cases h; exact List.Perm.refl _
  | cons ax l ih =>
    simp only [moveLoop] at h
    split at h
    · split at h
      · cases h
      · rename_i a' ha'
        exact (ih h).trans (moveaxis_data ha')
    · exact ih h

theorem moveSampleAxes_data {a b : NDArr α} {axes : Option (List Int)} {D : List Nat}
    (h : moveSampleAxes a axes = .ok (b, D)) : b.data.Perm a.data := by
  unfold moveSampleAxes at h
  split at h
  · cases h
  · rename_i m t hm
    cases h
    exact moveLoop_data hm

theorem fits_perm {h : Mem α} {v : View} {p : NDArr (Option Nat)} (hf : Fits h v) (hp : p.data.Perm v.pos.data) :
    Fits h ⟨v.buf, p⟩ where
  buf := hf.buf
  inside := fun x hx => hf.inside x (hp.mem_iff.1 hx)
  nodup := hp.nodup_iff.2 hf.nodup

theorem reshapeInfer_data {a b : NDArr α} {p q : List Nat} (h : a.reshapeInfer p q = .ok b) : b.data = a.data := by
  unfold reshapeInfer at h
  simp only at h
  split at h
  · cases h
  · unfold NDArr.reshape at h
    split at h
    · cases h; rfl
    · cases h

theorem reshapeInfer_shape {a b : NDArr α} {k : Nat} (h : a.reshapeInfer [] [k] = .ok b) :
    ∃ R, b.shape = [R, k] := by
  unfold reshapeInfer at h
  simp only at h
  split at h
  · cases h
  · unfold NDArr.reshape at h
    split at h
    · cases h; exact ⟨_, rfl⟩
    · cases h

theorem at_append (h : Mem α) (x : List α) {b : Nat} (hb : b < h.length) (q : Option Nat) :
    (h ++ [x] : Mem α).at b q = h.at b q := by
  cases q with
  | none => rfl
  | some q =>
    simp only [Mem.at, List.getD_eq_getElem?_getD, List.getElem?_append_left hb]

theorem read_append (h : Mem α) (x : List α) {u : View} (hu : u.buf < h.length) :
    Mem.read (h ++ [x] : Mem α) u = h.read u := by
  unfold Mem.read
  congr 1
  funext q
  exact at_append h x hu q

theorem fits_append {h : Mem α} {u : View} (hu : Fits h u) (x : List α) : Fits (h ++ [x] : Mem α) u where
  buf := by have := hu.buf; simp; omega
  inside := by
    intro p hp
    obtain ⟨q, h1, h2⟩ := hu.inside p hp
    refine ⟨q, h1, ?_⟩
    rw [List.getD_eq_getElem?_getD, List.getElem?_append_left hu.buf, ← List.getD_eq_getElem?_getD]
    exact h2
  nodup := hu.nodup

theorem alloc_read (h : Mem α) (a : NDArr α) : (h.alloc a).1.read (h.alloc a).2 = a := by
  refine ext' (by rfl) ?_
  simp only [Mem.alloc, Mem.read, NDArr.map, List.map_map]
  apply List.ext_getElem (by simp)
  intro n h1 h2
  simp [Mem.at, h2, List.getD_eq_getElem?_getD]

theorem alloc_fits (h : Mem α) (a : NDArr α) : Fits (h.alloc a).1 (h.alloc a).2 where
  buf := by simp [Mem.alloc]
  inside := by
    intro p hp
    simp only [Mem.alloc, List.mem_map, List.mem_range] at hp
    obtain ⟨q, hq, rfl⟩ := hp
    exact ⟨q, rfl, by simpa [Mem.alloc, List.getD_eq_getElem?_getD] using hq⟩
  nodup := by
    simp only [Mem.alloc]
    exact List.nodup_range.map (fun a b h => Option.some.inj h)

/-- what `reshape` does: a view of the same places, or a copy in a new buffer -/
theorem memReshape_spec (nocopy : NDArr (Option Nat) → List Nat → Bool) {h : Mem α} {w : View} (hw : Fits h w) (k : Nat) :
    (∃ x, w.pos.reshapeInfer [] [k] = .error x ∧ h.reshape nocopy w k = .error x) ∨
    ∃ p h' w' R, w.pos.reshapeInfer [] [k] = .ok p ∧ h.reshape nocopy w k = .ok (h', w') ∧ p.shape = [R, k] ∧
      w'.pos.shape = [R, k] ∧ h'.read w' = p.map (h.at w.buf) ∧ Fits h' w' ∧
      ((nocopy w.pos [R, k] = true ∧ h' = h ∧ w' = ⟨w.buf, p⟩ ∧ p.data = w.pos.data) ∨
        (nocopy w.pos [R, k] = false ∧ (∃ x, h' = h ++ [x]) ∧ w'.buf = h.length)) := by
  cases hp : w.pos.reshapeInfer [] [k] with
  | error x => exact Or.inl ⟨x, rfl, by simp [Mem.reshape, hp, bind, Except.bind]⟩
  | ok p =>
    obtain ⟨R, hR⟩ := reshapeInfer_shape hp
    have hd := reshapeInfer_data hp
    have hfp : Fits h ⟨w.buf, p⟩ := fits_perm hw (List.Perm.of_eq hd)
    refine Or.inr ?_
    cases hc : nocopy w.pos [R, k] with
    | true =>
      exact ⟨p, h, ⟨w.buf, p⟩, R, rfl, by simp [Mem.reshape, hp, bind, Except.bind, hR, hc, pure, Except.pure], hR, hR, rfl,
        hfp, Or.inl ⟨hc, rfl, rfl, hd⟩⟩
    | false =>
      refine ⟨p, (h.alloc (h.read ⟨w.buf, p⟩)).1, (h.alloc (h.read ⟨w.buf, p⟩)).2, R, rfl,
        by simp [Mem.reshape, hp, bind, Except.bind, hR, hc, pure, Except.pure], hR, hR, ?_, alloc_fits _ _,
        Or.inr ⟨hc, ⟨_, rfl⟩, rfl⟩⟩
      rw [alloc_read]
      rfl

end

/-- arrays of the same shape differ only in their elements -/
theorem unit_eq {α β : Type} {a : NDArr α} {b : NDArr β} (h : a.shape = b.shape) :
    a.map (fun _ => ()) = b.map (fun _ => ()) := by
  refine ext' h ?_
  have h1 := a.wf
  have h2 := b.wf
  apply List.ext_getElem
  · simp [NDArr.map, h1, h2, h]
  · intro n _ _; rfl

theorem moveSampleAxes_shape_congr {α β : Type} [Inhabited α] [Inhabited β] {a m : NDArr α} {b m' : NDArr β}
    {axes : Option (List Int)} {D D' : List Nat} (h : a.shape = b.shape) (ha : moveSampleAxes a axes = .ok (m, D))
    (hb : moveSampleAxes b axes = .ok (m', D')) : D' = D ∧ m'.shape = m.shape := by
  have e1 := moveSampleAxes_map (φ := fun _ : α => ()) rfl a axes
  have e2 := moveSampleAxes_map (φ := fun _ : β => ()) rfl b axes
  rw [unit_eq h, e2, ha, hb] at e1
  have := Except.ok.inj e1
  have h1 := congrArg (fun p => p.1.shape) this
  have h2 := congrArg Prod.snd this
  exact ⟨h2, h1⟩

theorem reshapeInfer_shape_congr {α β : Type} {a m : NDArr α} {b m' : NDArr β} {p q : List Nat} (h : a.shape = b.shape)
    (ha : a.reshapeInfer p q = .ok m) (hb : b.reshapeInfer p q = .ok m') : m'.shape = m.shape := by
  have e1 := reshapeInfer_map (fun _ : α => ()) a p q
  have e2 := reshapeInfer_map (fun _ : β => ()) b p q
  rw [unit_eq h, e2, ha, hb] at e1
  exact congrArg NDArr.shape (Except.ok.inj e1)

/-- a function value read from the memory keeps "no place" -/
theorem at_default {α : Type} [Inhabited α] (h : Mem α) (b : Nat) : h.at b default = default := rfl

/-- the course of `_binned_spread_skill_create_split` in memory, next to the same computation on values -/
theorem ssMem_cases (nocopy : NDArr (Option Nat) → List Nat → Bool) {argsort : Nat → List (Fl K) → List Nat}
    (hargs : ∀ c l, IsArgsort l (argsort c l)) {h : Mem (Fl K)} {v e : View} (hv : Fits h v) (he : Fits h e)
    (ha : Apart v e) (nbins : Nat) (ax : Option (List Int)) :
    ((ssCreateSplitMem nocopy argsort h v e nbins ax).1 = ssCreateSplit argsort (h.read v) (h.read e) nbins ax) ∧
    ((∃ l, (ssCreateSplitMem nocopy argsort h v e nbins ax).2 = h ++ l) ∨
      ∃ pv pe pv' pe' keep h2 V E R,
        moveSampleAxes v.pos (some (resolveAxes v.pos.ndim ax)) = .ok (pv, keep) ∧
        moveSampleAxes e.pos (some (resolveAxes v.pos.ndim ax)) = .ok (pe, keep) ∧
        pv.reshapeInfer [] [keep.prod] = .ok pv' ∧ pe.reshapeInfer [] [keep.prod] = .ok pe' ∧
        V.pos.shape = [R, keep.prod] ∧ E.pos.shape = [R, keep.prod] ∧ (∃ l, h2 = h ++ l) ∧ Fits h2 V ∧ Fits h2 E ∧
        Apart V E ∧ h2.read V = pv'.map (h.at v.buf) ∧ h2.read E = pe'.map (h.at e.buf) ∧
        ((nocopy pv [R, keep.prod] = true ∧ V = ⟨v.buf, pv'⟩) ∨
          (nocopy pv [R, keep.prod] = false ∧ h.length ≤ V.buf)) ∧
        ((nocopy pe [R, keep.prod] = true ∧ E = ⟨e.buf, pe'⟩) ∨
          (nocopy pe [R, keep.prod] = false ∧ h.length ≤ E.buf)) ∧
        (ssCreateSplitMem nocopy argsort h v e nbins ax).2 =
          (List.range keep.prod).foldl (sortColumn argsort V E) h2) := by
  unfold ssCreateSplitMem ssCreateSplit
  by_cases hsh : v.pos.shape = e.pos.shape
  swap
  · rw [if_pos hsh, if_pos (by simpa using hsh)]
    exact ⟨rfl, Or.inl ⟨[], by simp⟩⟩
  rw [if_neg (by simpa using hsh), if_neg (by simpa using hsh)]
  have hnd : (h.read v).ndim = v.pos.ndim := rfl
  simp only [hnd, bind, Except.bind]
  set axes := some (resolveAxes v.pos.ndim ax) with haxes
  have m1 : moveSampleAxes (h.read v) axes = (moveSampleAxes v.pos axes).map fun p => (p.1.map (h.at v.buf), p.2) :=
    moveSampleAxes_map (at_default h _) _ _
  have m2 : moveSampleAxes (h.read e) axes = (moveSampleAxes e.pos axes).map fun p => (p.1.map (h.at e.buf), p.2) :=
    moveSampleAxes_map (at_default h _) _ _
  rw [m1, m2]
  cases hmv : moveSampleAxes v.pos axes with
  | error x => exact ⟨rfl, Or.inl ⟨[], by simp⟩⟩
  | ok pk =>
  obtain ⟨pv, keep⟩ := pk
  cases hme : moveSampleAxes e.pos axes with
  | error x => exact ⟨rfl, Or.inl ⟨[], by simp⟩⟩
  | ok pk' =>
  obtain ⟨pe, keep'⟩ := pk'
  -- both arrays keep the same axes
  have hkk : keep' = keep ∧ pe.shape = pv.shape := by
    have := moveSampleAxes_shape_congr hsh hmv hme
    exact this
  obtain ⟨rfl, hps⟩ := hkk
  have dv := moveSampleAxes_data hmv
  have de := moveSampleAxes_data hme
  have fv : Fits h ⟨v.buf, pv⟩ := fits_perm hv dv
  have fe : Fits h ⟨e.buf, pe⟩ := fits_perm he de
  simp only [Except.map]
  rw [reshapeInfer_map, reshapeInfer_map]
  rcases memReshape_spec nocopy fv keep'.prod with ⟨x, rx, ry⟩ | ⟨pv', h1, V, R, r1, r2, r3, r4, r5, r6, r7⟩
  · simp only at rx
    simp only [rx, ry, Except.map]
    exact ⟨trivial, Or.inl ⟨[], by simp⟩⟩
  simp only at r1 r5 r7
  -- the second array after the first reshape
  have hext : (∃ l, h1 = h ++ l) ∧ Fits h1 ⟨e.buf, pe⟩ ∧ (∀ b q, b < h.length → h1.at b q = h.at b q) := by
    rcases r7 with ⟨-, rfl, -, -⟩ | ⟨-, ⟨x, rfl⟩, -⟩
    · exact ⟨⟨[], by simp⟩, fe, fun _ _ _ => rfl⟩
    · exact ⟨⟨[x], rfl⟩, fits_append fe x, fun b q hb => at_append h x hb q⟩
  obtain ⟨⟨l1, hl1⟩, fe1, hat1⟩ := hext
  rcases memReshape_spec nocopy fe1 keep'.prod with ⟨x, rx, ry⟩ | ⟨pe', h2, E, R', s1, s2, s3, s4, s5, s6, s7⟩
  · simp only at rx
    simp only [r1, r2, rx, ry, Except.map]
    exact ⟨trivial, Or.inl ⟨l1, hl1⟩⟩
  simp only at s1 s5 s7
  have hRR : R' = R := by
    have e1 := reshapeInfer_shape_congr hps.symm r1 s1
    rw [r3, s3] at e1
    simpa using e1
  subst hRR
  have hbe : h1.at e.buf = h.at e.buf := funext fun q => hat1 e.buf q he.buf
  rw [hbe] at s5
  -- the memory before sorting
  have hfin : (∃ l, h2 = h ++ l) ∧ Fits h2 V ∧ h2.read V = h1.read V ∧ Apart V E := by
    rcases s7 with ⟨-, rfl, rfl, sd⟩ | ⟨-, ⟨x, rfl⟩, sb⟩
    · refine ⟨⟨l1, hl1⟩, r6, rfl, ?_⟩
      rcases r7 with ⟨-, rfl, rfl, rd⟩ | ⟨-, -, rb⟩
      · rcases ha with hb | hb
        · exact Or.inl hb
        · refine Or.inr fun p hp hq => hb p ?_ ?_
          · have : p ∈ pv.data := by rw [← rd]; exact hp
            exact dv.mem_iff.1 this
          · have : p ∈ pe.data := by rw [← sd]; exact hq
            exact de.mem_iff.1 this
      · refine Or.inl ?_
        have := he.buf
        simp only
        omega
    · refine ⟨⟨l1 ++ [x], by rw [hl1, List.append_assoc]⟩, fits_append r6 x, read_append h1 x r6.buf, ?_⟩
      refine Or.inl ?_
      have := r6.buf
      omega
  obtain ⟨hl2, fV, hrV, hap⟩ := hfin
  have hshape2 : (pv'.map (h.at v.buf)).shape = [R', keep'.prod] := r3
  have hshape3 : (pe'.map (h.at e.buf)).shape = [R', keep'.prod] := s3
  have hRV : h2.read V = pv'.map (h.at v.buf) := hrV.trans r5
  obtain ⟨-, L2, L3, -⟩ := sortLoop_spec hargs r4 s4 fV s6 hap keep'.prod (le_refl _)
  have hvalV : ((List.range keep'.prod).foldl (sortColumn argsort V E) h2).read V =
      ofFn [R', keep'.prod] fun idx => (pv'.map (h.at v.buf)).get
        [(argsort (idx.getD 1 0) ((pv'.map (h.at v.buf)).col (idx.getD 1 0))).getD (idx.getD 0 0) 0, idx.getD 1 0] := by
    refine ext_get r4 fun k hk => ?_
    rw [read_shape, r4] at hk
    obtain ⟨r, c, rfl⟩ : ∃ r c, k = [r, c] := by
      match k, hk.length with
      | [r, c], _ => exact ⟨r, c, rfl⟩
    obtain ⟨hr, hc⟩ := inB2.1 hk
    rw [L2 r c hr hc, if_pos hc, get_ofFn _ hk, hRV]
    simp
  have hvalE : ((List.range keep'.prod).foldl (sortColumn argsort V E) h2).read E =
      ofFn [R', keep'.prod] fun idx => (pe'.map (h.at e.buf)).get
        [(argsort (idx.getD 1 0) ((pv'.map (h.at v.buf)).col (idx.getD 1 0))).getD (idx.getD 0 0) 0, idx.getD 1 0] := by
    refine ext_get s4 fun k hk => ?_
    rw [read_shape, s4] at hk
    obtain ⟨r, c, rfl⟩ : ∃ r c, k = [r, c] := by
      match k, hk.length with
      | [r, c], _ => exact ⟨r, c, rfl⟩
    obtain ⟨hr, hc⟩ := inB2.1 hk
    rw [L3 r c hr hc, if_pos hc, get_ofFn _ hk, hRV, s5]
    simp
  simp only [r1, r2, s1, s2, Except.map]
  refine ⟨?_, Or.inr ⟨pv, pe, pv', pe', keep', h2, V, E, R', rfl, rfl, r1, s1, r4, s4, hl2, fV, s6, hap, hRV, s5, ?_, ?_, ?_⟩⟩
  · simp only [r4, s4, shape_ofFn, hshape2, hshape3, List.getD_cons_zero, List.getD_cons_succ]
    by_cases hle : nbins ≤ R'
    · rw [if_neg (by simpa using hle), if_neg (by simpa using hle)]
      rw [hvalV, hvalE]
      generalize arraySplit0 (α := Fl K) _ nbins = z
      cases z <;> rfl
    · rw [if_pos hle, if_pos hle]
  · rcases r7 with ⟨c1, -, rfl, -⟩ | ⟨c1, -, c2⟩
    · exact Or.inl ⟨c1, rfl⟩
    · exact Or.inr ⟨c1, le_of_eq c2.symm⟩
  · rcases s7 with ⟨c1, -, rfl, -⟩ | ⟨c1, -, c2⟩
    · exact Or.inl ⟨c1, rfl⟩
    · refine Or.inr ⟨c1, ?_⟩
      rw [c2, hl1, List.length_append]
      omega
  · simp only [r4, List.getD_cons_succ, List.getD_cons_zero]
    split
    · rfl
    · split <;> rfl

theorem at_extend {α : Type} [Inhabited α] (h l : Mem α) {b : Nat} (hb : b < h.length) (q : Option Nat) :
    (h ++ l : Mem α).at b q = h.at b q := by
  cases q with
  | none => rfl
  | some q =>
    simp only [Mem.at, List.getD_eq_getElem?_getD, List.getElem?_append_left hb]

theorem fits_extend {α : Type} {h : Mem α} {u : View} (hu : Fits h u) (l : Mem α) : Fits (h ++ l : Mem α) u where
  buf := by have := hu.buf; simp; omega
  inside := by
    intro p hp
    obtain ⟨q, h1, h2⟩ := hu.inside p hp
    refine ⟨q, h1, ?_⟩
    rw [List.getD_eq_getElem?_getD, List.getElem?_append_left hu.buf, ← List.getD_eq_getElem?_getD]
    exact h2
  nodup := hu.nodup

/-- nothing outside the two arguments changes -/
theorem ssMem_frame (nocopy : NDArr (Option Nat) → List Nat → Bool) {argsort : Nat → List (Fl K) → List Nat}
    (hargs : ∀ c l, IsArgsort l (argsort c l)) {h : Mem (Fl K)} {v e : View} (hv : Fits h v) (he : Fits h e)
    (ha : Apart v e) (nbins : Nat) (ax : Option (List Int)) {b q : Nat} (hb : b < h.length)
    (h1 : ¬ View.holds v b q) (h2 : ¬ View.holds e b q) :
    (ssCreateSplitMem nocopy argsort h v e nbins ax).2.at b (some q) = h.at b (some q) := by
  obtain ⟨-, ⟨l, hl⟩ | ⟨pv, pe, pv', pe', keep, hm, V, E, R, m1, m2, r1, r2, s1, s2, ⟨l, rfl⟩, fV, fE, hap, -, -, hV, hE, hr⟩⟩ :=
    ssMem_cases nocopy hargs hv he ha nbins ax
  · rw [hl, at_extend h l hb]
  · have hn : ∀ {u U : View} {pu pu' : NDArr (Option Nat)}, ¬ View.holds u b q →
        moveSampleAxes u.pos (some (resolveAxes v.pos.ndim ax)) = .ok (pu, keep) →
        pu.reshapeInfer [] [keep.prod] = .ok pu' →
        ((nocopy pu [R, keep.prod] = true ∧ U = ⟨u.buf, pu'⟩) ∨ (nocopy pu [R, keep.prod] = false ∧ h.length ≤ U.buf)) →
        ¬ View.holds U b q := by
      rintro u U pu pu' hu hm hp (⟨-, rfl⟩ | ⟨-, hB⟩) ⟨e1, e2⟩
      · refine hu ⟨e1, ?_⟩
        have e3 : some q ∈ pu'.data := e2
        rw [reshapeInfer_data hp] at e3
        exact (moveSampleAxes_data hm).mem_iff.1 e3
      · omega
    obtain ⟨-, -, -, L⟩ := sortLoop_spec hargs s1 s2 fV fE hap keep.prod (le_refl _)
    rw [hr, L b q (hn h1 m1 r1 hV) (hn h2 m2 r2 hE), at_extend h l hb]

/-- the arrays keep their places -/
theorem ssMem_fits (nocopy : NDArr (Option Nat) → List Nat → Bool) {argsort : Nat → List (Fl K) → List Nat}
    (hargs : ∀ c l, IsArgsort l (argsort c l)) {h : Mem (Fl K)} {v e : View} (hv : Fits h v) (he : Fits h e)
    (ha : Apart v e) (nbins : Nat) (ax : Option (List Int)) {w : View} (hw : Fits h w) :
    Fits (ssCreateSplitMem nocopy argsort h v e nbins ax).2 w := by
  obtain ⟨-, ⟨l, hl⟩ | ⟨pv, pe, pv', pe', keep, hm, V, E, R, m1, m2, r1, r2, s1, s2, ⟨l, rfl⟩, fV, fE, hap, -, -, hV, hE, hr⟩⟩ :=
    ssMem_cases nocopy hargs hv he ha nbins ax
  · rw [hl]; exact fits_extend hw l
  · obtain ⟨L, -⟩ := sortLoop_spec hargs s1 s2 fV fE hap keep.prod (le_refl _)
    rw [hr]
    exact L w (fits_extend hw l)

/-- the columns of `x` in the order that sorts the columns of `v` -/
def sortCols (argsort : Nat → List (Fl K) → List Nat) (v x : NDArr (Fl K)) : NDArr (Fl K) :=
  ofFn x.shape fun idx => x.get [(argsort (idx.getD 1 0) (v.col (idx.getD 1 0))).getD (idx.getD 0 0) 0, idx.getD 1 0]

/-- the computation on values from the flattened arrays on (utils_ss.py:71-87) -/
def splitCols (argsort : Nat → List (Fl K) → List Nat) (v e : NDArr (Fl K)) (nbins : Nat) (keep : List Nat) :
    Except Err (List (NDArr (Fl K)) × List Nat) :=
  let vs := sortCols argsort v v
  let es := sortCols argsort v e
  if ¬ nbins ≤ es.shape.getD 0 0 then .error .assertion
  else
    let stacked : NDArr (Fl K) := ofFn [vs.shape.getD 0 0, 2, vs.shape.getD 1 0] fun idx =>
      if idx.getD 1 0 = 0 then vs.get [idx.getD 0 0, idx.getD 2 0]
      else es.get [idx.getD 0 0, idx.getD 2 0]
    do
      let pieces ← arraySplit0 stacked nbins
      pure (pieces, keep)

theorem ssCreateSplit_cols (argsort : Nat → List (Fl K) → List Nat) (h : Mem (Fl K)) {v e : View} (nbins : Nat)
    (ax : Option (List Int)) (hsh : v.pos.shape = e.pos.shape) {pv pe pv' pe' : NDArr (Option Nat)} {keep : List Nat}
    (m1 : moveSampleAxes v.pos (some (resolveAxes v.pos.ndim ax)) = .ok (pv, keep))
    (m2 : moveSampleAxes e.pos (some (resolveAxes v.pos.ndim ax)) = .ok (pe, keep))
    (r1 : pv.reshapeInfer [] [keep.prod] = .ok pv') (r2 : pe.reshapeInfer [] [keep.prod] = .ok pe') :
    ssCreateSplit argsort (h.read v) (h.read e) nbins ax =
      splitCols argsort (pv'.map (h.at v.buf)) (pe'.map (h.at e.buf)) nbins keep := by
  unfold ssCreateSplit
  have hnd : (h.read v).ndim = v.pos.ndim := rfl
  rw [if_neg (by simpa using hsh)]
  have e1 : moveSampleAxes (h.read v) (some (resolveAxes v.pos.ndim ax)) = .ok (pv.map (h.at v.buf), keep) := by
    unfold Mem.read
    rw [moveSampleAxes_map (at_default h _), m1]; rfl
  have e2 : moveSampleAxes (h.read e) (some (resolveAxes v.pos.ndim ax)) = .ok (pe.map (h.at e.buf), keep) := by
    unfold Mem.read
    rw [moveSampleAxes_map (at_default h _), m2]; rfl
  have e3 := reshapeInfer_map (h.at v.buf) pv [] [keep.prod]
  have e4 := reshapeInfer_map (h.at e.buf) pe [] [keep.prod]
  rw [r1] at e3
  rw [r2] at e4
  simp only [hnd, e1, e2, bind, Except.bind, e3, e4, Except.map]
  rfl

theorem sortCols_col {argsort : Nat → List (Fl K) → List Nat} (hargs : ∀ c l, IsArgsort l (argsort c l)) {a : NDArr (Fl K)}
    {R C c : Nat} (hs : a.shape = [R, C]) (hc : c < C) :
    (sortCols argsort a a).col c = (argsort c (a.col c)).map ((a.col c).getD · none) := by
  have hcl : (a.col c).length = R := by simp [col, hs]
  have hp := (hargs c (a.col c)).1
  rw [hcl] at hp
  have hl : (argsort c (a.col c)).length = R := by simpa using hp.length_eq
  apply List.ext_getElem
  · rw [List.length_map, hl]; simp [col, sortCols, hs]
  · intro r h1 h2
    have hr : r < R := by simpa [hl] using h2
    have hlt : (argsort c (a.col c))[r] < R := by simpa using hp.mem_iff.1 (List.getElem_mem (by omega))
    have e1 : ((sortCols argsort a a).col c)[r] = (sortCols argsort a a).get [r, c] := by simp [col]
    have e2 : (a.col c).getD (argsort c (a.col c))[r] none = a.get [(argsort c (a.col c))[r], c] := by
      rw [List.getD_eq_getElem?_getD, List.getElem?_eq_getElem (by omega)]
      simp [col]
    rw [e1, List.getElem_map, e2]
    unfold sortCols
    rw [get_ofFn _ (by rw [hs]; exact inB2.2 ⟨hr, hc⟩)]
    simp [List.getD_eq_getElem?_getD, hl, hr]

/-- sorting sorted columns changes nothing -/
theorem sortCols_idem {argsort : Nat → List (Fl K) → List Nat} (hargs : ∀ c l, IsArgsort l (argsort c l))
    (hid : ∀ c l, l.Pairwise leNan → argsort c l = List.range l.length) {a b : NDArr (Fl K)} {R C : Nat}
    (ha : a.shape = [R, C]) (hb : b.shape = [R, C]) :
    sortCols argsort (sortCols argsort a a) b = b := by
  refine ext_get rfl fun k hk => ?_
  have hk' : InB [R, C] k := hb ▸ hk
  obtain ⟨r, c, rfl⟩ : ∃ r c, k = [r, c] := by
    match k, hk'.length with
    | [r, c], _ => exact ⟨r, c, rfl⟩
  obtain ⟨hr, hc⟩ := inB2.1 hk'
  rw [sortCols, get_ofFn _ (by rw [hb]; exact hk')]
  simp only [List.getD_cons_zero, List.getD_cons_succ]
  rw [hid c _ (by rw [sortCols_col hargs ha hc]; exact (hargs c _).2)]
  have hl : ((sortCols argsort a a).col c).length = R := by simp [col, sortCols, ha]
  rw [hl, List.getD_eq_getElem?_getD, List.getElem?_range hr]
  rfl

theorem splitCols_idem {argsort : Nat → List (Fl K) → List Nat} (hargs : ∀ c l, IsArgsort l (argsort c l))
    (hid : ∀ c l, l.Pairwise leNan → argsort c l = List.range l.length) {a b : NDArr (Fl K)} {R C : Nat}
    (ha : a.shape = [R, C]) (hb : b.shape = [R, C]) (nbins : Nat) (keep : List Nat) :
    splitCols argsort (sortCols argsort a a) (sortCols argsort a b) nbins keep = splitCols argsort a b nbins keep := by
  unfold splitCols
  rw [sortCols_idem hargs hid ha (by simpa [sortCols] using ha), sortCols_idem hargs hid ha (by simpa [sortCols] using hb)]

theorem ssMem_again (nocopy : NDArr (Option Nat) → List Nat → Bool) {argsort : Nat → List (Fl K) → List Nat}
    (hargs : ∀ c l, IsArgsort l (argsort c l)) (hid : ∀ c l, l.Pairwise leNan → argsort c l = List.range l.length)
    {h : Mem (Fl K)} {v e : View} (hv : Fits h v) (he : Fits h e) (ha : Apart v e) (hl : v.pos = e.pos)
    (nbins nbins' : Nat) (ax : Option (List Int)) :
    ssCreateSplit argsort ((ssCreateSplitMem nocopy argsort h v e nbins' ax).2.read v)
      ((ssCreateSplitMem nocopy argsort h v e nbins' ax).2.read e) nbins ax =
      ssCreateSplit argsort (h.read v) (h.read e) nbins ax := by
  have hsame : ∀ {h' : Mem (Fl K)}, (∀ b q, b < h.length → h'.at b q = h.at b q) →
      ssCreateSplit argsort (h'.read v) (h'.read e) nbins ax = ssCreateSplit argsort (h.read v) (h.read e) nbins ax := by
    intro h' hh
    have e1 : h'.read v = h.read v := by
      unfold Mem.read; congr 1; funext q; exact hh _ _ hv.buf
    have e2 : h'.read e = h.read e := by
      unfold Mem.read; congr 1; funext q; exact hh _ _ he.buf
    rw [e1, e2]
  obtain ⟨-, ⟨l, hl'⟩ | ⟨pv, pe, pv', pe', keep, hm, V, E, R, m1, m2, r1, r2, s1, s2, ⟨l, rfl⟩, fV, fE, hap, t1, t2, hV, hE, hr⟩⟩ :=
    ssMem_cases nocopy hargs hv he ha nbins' ax
  · exact hsame fun b q hb => by rw [hl', at_extend h l hb]
  · obtain ⟨-, L2, L3, L4⟩ := sortLoop_spec hargs s1 s2 fV fE hap keep.prod (le_refl _)
    rw [← hr] at L2 L3 L4
    set h' := (ssCreateSplitMem nocopy argsort h v e nbins' ax).2 with hh'
    have hpe : pe = pv := by
      rw [← hl, m1] at m2
      exact (congrArg Prod.fst (Except.ok.inj m2)).symm
    subst hpe
    have hpe' : pe' = pv' := by
      rw [r1] at r2
      exact (Except.ok.inj r2).symm
    subst hpe'
    rcases hV with ⟨c1, rfl⟩ | ⟨c1, hB⟩
    · rcases hE with ⟨-, rfl⟩ | ⟨c2, -⟩
      swap
      · rw [c1] at c2; cases c2
      have a1 : (pe'.map (h.at v.buf)).shape = [R, keep.prod] := s1
      have a2 : (pe'.map (h.at e.buf)).shape = [R, keep.prod] := s1
      have b1 : pe'.map (h'.at v.buf) = sortCols argsort (pe'.map (h.at v.buf)) (pe'.map (h.at v.buf)) := by
        refine ext_get rfl fun k hk => ?_
        have hk' : InB [R, keep.prod] k := s1 ▸ hk
        obtain ⟨r, c, rfl⟩ : ∃ r c, k = [r, c] := by
          match k, hk'.length with
          | [r, c], _ => exact ⟨r, c, rfl⟩
        obtain ⟨hr', hc⟩ := inB2.1 hk'
        have := L2 r c hr' hc
        rw [if_pos hc, t1] at this
        rw [sortCols, get_ofFn _ (by rw [a1]; exact hk')]
        exact this
      have b2 : pe'.map (h'.at e.buf) = sortCols argsort (pe'.map (h.at v.buf)) (pe'.map (h.at e.buf)) := by
        refine ext_get rfl fun k hk => ?_
        have hk' : InB [R, keep.prod] k := s1 ▸ hk
        obtain ⟨r, c, rfl⟩ : ∃ r c, k = [r, c] := by
          match k, hk'.length with
          | [r, c], _ => exact ⟨r, c, rfl⟩
        obtain ⟨hr', hc⟩ := inB2.1 hk'
        have := L3 r c hr' hc
        rw [if_pos hc, t1, t2] at this
        rw [sortCols, get_ofFn _ (by rw [a2]; exact hk')]
        exact this
      rw [ssCreateSplit_cols argsort h' nbins ax (by rw [hl]) m1 m2 r1 r1,
        ssCreateSplit_cols argsort h nbins ax (by rw [hl]) m1 m2 r1 r1, b1, b2]
      exact splitCols_idem hargs hid a1 a2 nbins keep
    · rcases hE with ⟨c2, -⟩ | ⟨-, hB'⟩
      · rw [c1] at c2; cases c2
      refine hsame fun b q hb => ?_
      cases q with
      | none => rfl
      | some q =>
        rw [L4 b q (fun hh => by have := hh.1; omega) (fun hh => by have := hh.1; omega), at_extend h l hb]

end Lemmas
