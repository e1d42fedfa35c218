import Verif.Model.Rank
import Verif.Spec.Rank
import Verif.Lemmas.Ensemble

/-! Lemmas about `rankdata` and its split evaluation. -/

set_option linter.unusedSectionVars false

namespace Lemmas
open Np NDArr Spec Model

theorem mem_npUniqueNat {l : List Nat} {x : Nat} : x ∈ npUniqueNat l ↔ x ∈ l := by
  unfold npUniqueNat
  simp only [List.mem_filter, List.mem_range, decide_eq_true_eq, and_iff_right_iff_imp]
  intro h
  have : x ≤ l.foldr max 0 := by
    induction l with
    | nil => cases h
    | cons a l ih =>
      rcases List.mem_cons.1 h with rfl | h
      · exact le_max_left _ _
      · exact (ih h).trans (le_max_right _ _)
  omega

theorem npUniqueNat_sorted (l : List Nat) : (npUniqueNat l).Pairwise (· < ·) :=
  List.Pairwise.sublist List.filter_sublist List.pairwise_lt_range

/-- the tie counts the loop visits: those with a smaller count somewhere -/
theorem mem_npUniqueNat_tail {l : List Nat} {x : Nat} :
    x ∈ (npUniqueNat l).tail ↔ x ∈ l ∧ ∃ y ∈ l, y < x := by
  have hs := npUniqueNat_sorted l
  have hm : ∀ y, y ∈ npUniqueNat l ↔ y ∈ l := fun y => mem_npUniqueNat
  cases hl : npUniqueNat l with
  | nil =>
    rw [hl] at hm
    simp only [List.tail_nil, List.not_mem_nil, false_iff, not_and]
    intro hx
    exact absurd ((hm x).2 hx) (by simp)
  | cons a t =>
    rw [hl] at hm hs
    rw [List.pairwise_cons] at hs
    simp only [List.tail_cons]
    constructor
    · intro hx
      exact ⟨(hm x).1 (List.mem_cons_of_mem _ hx), a, (hm a).1 List.mem_cons_self, hs.1 x hx⟩
    · rintro ⟨hx, y, hy, hyx⟩
      rcases List.mem_cons.1 ((hm x).2 hx) with rfl | h
      · rcases List.mem_cons.1 ((hm y).2 hy) with rfl | h'
        · exact absurd hyx (lt_irrefl _)
        · exact absurd (hs.1 y h') (by omega)
      · exact h

/-- the tie counts visited by the loop are positive, so the drawn sample is never empty -/
theorem npUniqueNat_tail_pos {l : List Nat} {x : Nat} (h : x ∈ (npUniqueNat l).tail) : 1 ≤ x := by
  obtain ⟨-, y, -, hy⟩ := mem_npUniqueNat_tail.1 h
  omega

theorem npUniqueNat_tail_nodup (l : List Nat) : (npUniqueNat l).tail.Nodup := by
  have := (npUniqueNat_sorted l).imp (S := (· ≠ ·)) (fun h => Nat.ne_of_lt h)
  exact (List.Pairwise.sublist (List.tail_sublist _) this)

/-- what the loop may do to one position -/
def TieRel (us : List Nat) (p q : Nat × Option Nat) : Prop :=
  q.1 = p.1 ∧ (p.1 ∉ us → q.2 = p.2) ∧ (p.1 ∈ us → ∃ e ≤ p.1, q.2 = p.2.map fun x => x + e)

theorem tieStep_rel (u : Nat) (d : Nat → Nat) (zs : List (Nat × Option Nat)) :
    List.Forall₂ (TieRel [u]) zs (tieStep u d zs) := by
  induction zs generalizing d with
  | nil => exact List.Forall₂.nil
  | cons z zs ih =>
    obtain ⟨t, r⟩ := z
    simp only [tieStep]
    split
    · rename_i h
      subst h
      refine List.Forall₂.cons ⟨rfl, fun h => absurd (by simp) h, fun _ => ⟨_, ?_, rfl⟩⟩ (ih _)
      have := Nat.mod_lt (d 0) (show 0 < t + 1 by omega)
      simp only; omega
    · rename_i h
      exact List.Forall₂.cons ⟨rfl, fun _ => rfl, fun h' => absurd (by simpa using h') h⟩ (ih _)

theorem tieLoop_rel (us : List Nat) (hn : us.Nodup) (d : Nat → Nat → Nat)
    (zs : List (Nat × Option Nat)) : List.Forall₂ (TieRel us) zs (tieLoop us d zs) := by
  induction us generalizing d zs with
  | nil =>
    simp only [tieLoop]
    exact List.forall₂_same.2 fun x _ => ⟨rfl, fun _ => rfl, fun h => absurd h (by simp)⟩
  | cons u us ih =>
    rw [List.nodup_cons] at hn
    have h1 := tieStep_rel u (d 0) zs
    have h2 := ih hn.2 (fun i => d (i + 1)) (tieStep u (d 0) zs)
    simp only [tieLoop]
    generalize tieStep u (d 0) zs = ys at h1 h2
    generalize tieLoop us (fun i => d (i + 1)) ys = ws at h2
    clear ih
    induction h1 generalizing ws with
    | nil => cases h2; exact List.Forall₂.nil
    | cons ha _ ih' =>
      cases h2 with
      | cons hb hbs =>
        refine List.Forall₂.cons ?_ (ih' _ hbs)
        obtain ⟨a1, a2, a3⟩ := ha
        obtain ⟨b1, b2, b3⟩ := hb
        refine ⟨b1.trans a1, ?_, ?_⟩
        · intro h
          rw [List.mem_cons, not_or] at h
          rw [b2 (by rw [a1]; exact h.2), a2 (by simpa using h.1)]
        · intro h
          rcases List.mem_cons.1 h with h | h
          · rw [b2 (by rw [a1, h]; exact hn.1)]
            exact a3 (by simp [h])
          · obtain ⟨e, he, he2⟩ := b3 (by rw [a1]; exact h)
            refine ⟨e, by rw [← a1]; exact he, ?_⟩
            rw [he2, a2]
            intro hu
            rw [List.mem_singleton] at hu
            exact hn.1 (hu ▸ h)

/-- the intended outcome of the loop for chosen offsets `es` -/
def tieTarget (us : List Nat) (zs : List (Nat × Option Nat)) (es : List Nat) :
    List (Nat × Option Nat) :=
  List.zipWith (fun z e => (z.1, if z.1 ∈ us then z.2.map (fun x => x + e) else z.2)) zs es

theorem tieStep_reach (u : Nat) (zs : List (Nat × Option Nat)) (es : List Nat)
    (hl : es.length = zs.length) (he : ∀ p ∈ zs.zip es, p.2 ≤ p.1.1) :
    ∃ d, tieStep u d zs = tieTarget [u] zs es := by
  induction zs generalizing es with
  | nil => cases es with
    | nil => exact ⟨fun _ => 0, rfl⟩
    | cons _ _ => simp at hl
  | cons z zs ih =>
    cases es with
    | nil => simp at hl
    | cons e es =>
      obtain ⟨t, r⟩ := z
      obtain ⟨d, hd⟩ := ih es (by simpa using hl) (fun p hp => he p (by simp [hp]))
      by_cases h : t = u
      · refine ⟨fun j => if j = 0 then e else d (j - 1), ?_⟩
        have hle : e ≤ t := he ((t, r), e) (by simp)
        simp only [tieStep, if_pos h, tieTarget, List.zipWith_cons_cons, List.mem_singleton]
        congr 1
        · rw [Nat.mod_eq_of_lt (by simp only [if_true]; omega)]
          simp
        · simpa [tieTarget] using hd
      · refine ⟨d, ?_⟩
        simp only [tieStep, if_neg h, tieTarget, List.zipWith_cons_cons, List.mem_singleton]
        congr 1
        simpa [tieTarget] using hd

theorem tieTarget_cons (u : Nat) (us : List Nat) (hu : u ∉ us) (zs : List (Nat × Option Nat))
    (es : List Nat) : tieTarget us (tieTarget [u] zs es) es = tieTarget (u :: us) zs es := by
  unfold tieTarget
  induction zs generalizing es with
  | nil => simp
  | cons z zs ih =>
    cases es with
    | nil => simp
    | cons e es =>
      simp only [List.zipWith_cons_cons, ih]
      congr 1
      obtain ⟨t, r⟩ := z
      by_cases h : t = u
      · subst h; simp [hu]
      · simp [h]

theorem tieLoop_reach (us : List Nat) (hn : us.Nodup) (zs : List (Nat × Option Nat)) (es : List Nat)
    (hl : es.length = zs.length) (he : ∀ p ∈ zs.zip es, p.2 ≤ p.1.1) :
    ∃ d, tieLoop us d zs = tieTarget us zs es := by
  induction us generalizing zs with
  | nil =>
    refine ⟨fun _ _ => 0, ?_⟩
    simp only [tieLoop, tieTarget, List.not_mem_nil, if_false]
    clear he
    induction zs generalizing es with
    | nil => simp
    | cons z zs ih => cases es with
      | nil => simp at hl
      | cons e es => rw [List.zipWith_cons_cons, ← ih es (by simpa using hl)]
  | cons u us ih =>
    rw [List.nodup_cons] at hn
    obtain ⟨d0, h0⟩ := tieStep_reach u zs es hl he
    have hl2 : es.length = (tieTarget [u] zs es).length := by simp [tieTarget, hl]
    have he2 : ∀ p ∈ (tieTarget [u] zs es).zip es, p.2 ≤ p.1.1 := by
      clear ih h0 d0 hl2
      unfold tieTarget
      induction zs generalizing es with
      | nil => simp
      | cons z zs ih' => cases es with
        | nil => simp
        | cons e es =>
          intro p hp
          rw [List.zipWith_cons_cons, List.zip_cons_cons] at hp
          rcases List.mem_cons.1 hp with rfl | hp
          · exact he (z, e) (by simp)
          · exact ih' es (by simpa using hl) (fun q hq => he q (by simp [hq])) p hp
    obtain ⟨d1, h1⟩ := ih hn.2 _ hl2 he2
    refine ⟨fun i => if i = 0 then d0 else d1 (i - 1), ?_⟩
    simp only [tieLoop, if_true]
    rw [h0]
    rw [← tieTarget_cons u us hn.1, ← h1]
    congr 1

variable {K : Type} [Field K] [LinearOrder K]

/-- position `k` has fewer ties somewhere else in the array -/
def SomeFewer (x : NDArr (Fl K)) (k : List Nat) : Prop :=
  ∃ k', InB x.shape.tail k' ∧ tiesCol (column x k') < tiesCol (column x k)

theorem someFewer_iff (x : NDArr (Fl K)) {k : List Nat} (hk : InB x.shape.tail k) :
    tiesCol (column x k) ∈ (npUniqueNat ((rankPairs x).map Prod.fst)).tail ↔ SomeFewer x k := by
  rw [mem_npUniqueNat_tail]
  have hm : ∀ t, t ∈ (rankPairs x).map Prod.fst ↔
      ∃ k', InB x.shape.tail k' ∧ tiesCol (column x k') = t := by
    intro t
    simp only [rankPairs, List.map_map, List.mem_map, Function.comp, mem_allIdx]
  simp only [hm]
  constructor
  · rintro ⟨-, y, ⟨k', h1, rfl⟩, h2⟩; exact ⟨k', h1, h2⟩
  · rintro ⟨k', h1, h2⟩; exact ⟨⟨k, hk, rfl⟩, _, ⟨k', h1, rfl⟩, h2⟩

/-- `rankdata`, position by position, for all draws -/
theorem rankdata_spec (d : Nat → Nat → Nat) (x : NDArr (Fl K)) {k : List Nat}
    (hk : InB x.shape.tail k) :
    (¬ SomeFewer x k → (rankdata d x).get k = rankCol (column x k)) ∧
    ∃ e ≤ tiesCol (column x k), (rankdata d x).get k = (rankCol (column x k)).map fun r => r + e := by
  have hrel := tieLoop_rel _ (npUniqueNat_tail_nodup ((rankPairs x).map Prod.fst)) d (rankPairs x)
  have hi := getElem?_allIdx hk
  have h1 : (rankPairs x)[ravel x.shape.tail k]? =
      some (tiesCol (column x k), rankCol (column x k)) := by
    unfold rankPairs; rw [List.getElem?_map, hi]; rfl
  have hlt : ravel x.shape.tail k < (rankPairs x).length := by
    rw [List.getElem?_eq_some_iff] at h1; exact h1.1
  have hlt2 := hlt
  rw [hrel.length_eq] at hlt2
  have h2 := List.Forall₂.get hrel hlt hlt2
  simp only [List.get_eq_getElem] at h2
  have h1' : (rankPairs x)[ravel x.shape.tail k] = (tiesCol (column x k), rankCol (column x k)) := by
    rw [List.getElem?_eq_getElem hlt] at h1; exact Option.some_inj.1 h1
  have hget : (rankdata d x).get k = ((tieLoop (npUniqueNat ((rankPairs x).map Prod.fst)).tail d
      (rankPairs x))[ravel x.shape.tail k]).2 := by
    unfold NDArr.get rankdata
    simp only
    rw [List.getD_eq_getElem?_getD, List.getElem?_map, List.getElem?_eq_getElem hlt2]
    rfl
  rw [hget]
  rw [h1'] at h2
  obtain ⟨-, a2, a3⟩ := h2
  simp only [someFewer_iff x hk] at a2 a3
  refine ⟨a2, ?_⟩
  by_cases hs : SomeFewer x k
  · exact a3 hs
  · exact ⟨0, by omega, by rw [a2 hs]; simp⟩

/-- every combination of offsets is reachable at the positions that are not minimal -/
theorem rankdata_reach (x : NDArr (Fl K)) (e : List Nat → Nat)
    (he : ∀ k, InB x.shape.tail k → e k ≤ tiesCol (column x k)) :
    ∃ d, ∀ k, InB x.shape.tail k → SomeFewer x k →
      (rankdata d x).get k = (rankCol (column x k)).map fun r => r + e k := by
  obtain ⟨d, hd⟩ := tieLoop_reach _ (npUniqueNat_tail_nodup ((rankPairs x).map Prod.fst))
    (rankPairs x) ((allIdx x.shape.tail).map e) (by simp [rankPairs]) (by
      intro p hp
      unfold rankPairs at hp
      rw [List.zip_map', List.mem_map] at hp
      obtain ⟨k, hk, rfl⟩ := hp
      exact he k (mem_allIdx.1 hk))
  refine ⟨d, ?_⟩
  intro k hk hs
  unfold NDArr.get rankdata
  simp only
  rw [hd, List.getD_eq_getElem?_getD, List.getElem?_map]
  unfold tieTarget rankPairs
  rw [List.getElem?_zipWith, List.getElem?_map, List.getElem?_map, getElem?_allIdx hk]
  have := (someFewer_iff x hk).2 hs
  unfold rankPairs at this
  simp only [Option.map_some, Option.getD_some]
  rw [if_pos this]

/-! ### ranks of a column -/

theorem minRank_inj {col : List (Fl K)} {x y : Fl K} (hx : x ∈ col) (hy : y ∈ col)
    (hn : none ∉ col) : minRank col x = minRank col y ↔ x = y := by
  have mono : ∀ a b : K, some a ∈ col → a < b → minRank col (some a) < minRank col (some b) := by
    intro a b ha hab
    unfold minRank
    have : col.countP (fun y => Fl.lt y (some a)) < col.countP (fun y => Fl.lt y (some b)) := by
      clear hx hy hn
      induction col with
      | nil => cases ha
      | cons z col ih =>
        have hle : ∀ l : List (Fl K), l.countP (fun y => Fl.lt y (some a)) ≤
            l.countP (fun y => Fl.lt y (some b)) := by
          intro l
          apply List.countP_mono_left
          intro w _ hw
          cases w with
          | none => simp [Fl.lt] at hw
          | some w => simp only [Fl.lt, decide_eq_true_eq] at hw ⊢; exact hw.trans hab
        rw [List.countP_cons, List.countP_cons]
        rcases List.mem_cons.1 ha with h | h
        · subst h
          have := hle col
          have e1 : Fl.lt (some a) (some a) = false := by simp [Fl.lt]
          have e2 : Fl.lt (some a) (some b) = true := by simp [Fl.lt, hab]
          rw [e1, e2]
          simp only [Bool.false_eq_true, if_false, if_true]
          omega
        · have h1 := ih h
          have h2 : (if Fl.lt z (some a) = true then 1 else 0) ≤ if Fl.lt z (some b) = true then 1 else 0 := by
            cases z with
            | none => simp [Fl.lt]
            | some z =>
              simp only [Fl.lt, decide_eq_true_eq]
              split
              · rename_i hz
                rw [if_pos (hz.trans hab)]
              · exact Nat.zero_le _
          omega
    omega
  constructor
  · intro h
    cases x with
    | none => exact absurd hx hn
    | some a => cases y with
      | none => exact absurd hy hn
      | some b =>
        rcases lt_trichotomy a b with h' | h' | h'
        · have := mono a b hx h'; omega
        · rw [h']
        · have := mono b a hy h'; omega
  · rintro rfl; rfl

theorem rankCol_cons {x : K} {M : List (Fl K)} (hM : none ∉ M) :
    rankCol (some x :: M) = some (1 + M.countP fun y => Fl.lt y (some x)) := by
  unfold rankCol minRank
  rw [if_neg (by simp [hM])]
  simp [Fl.lt]

theorem tiesCol_cons {x : K} {M : List (Fl K)} (hM : none ∉ M) :
    tiesCol (some x :: M) = M.countP fun y => y = some x := by
  unfold tiesCol
  rw [if_neg (by simp [hM])]
  simp only [List.tail_cons, List.getD_cons_zero]
  apply List.countP_congr
  intro y hy
  simp only [decide_eq_true_eq]
  rw [minRank_inj (by simp) (List.mem_cons_of_mem _ hy) (by simp [hM])]
  exact eq_comm

theorem rankCol_none {l : List (Fl K)} (h : none ∈ l) : rankCol l = none ∧ tiesCol l = 0 := by
  unfold rankCol tiesCol
  rw [if_pos h, if_pos h]
  exact ⟨rfl, rfl⟩

end Lemmas

namespace Lemmas
open Np NDArr Spec Model

/-- concatenating width-one pieces -/
theorem concatGet_ones {α : Type} [Inhabited α] {n : Nat} {S : List Nat} (hn : n < S.length)
    (ps : List (NDArr α)) (hp : ∀ p ∈ ps, p.shape = S.set n 1) (idx : List Nat)
    (hi : n < idx.length) (hj : idx.getD n 0 < ps.length) :
    concatGet n ps idx = (ps[idx.getD n 0]'hj).get (idx.set n 0) := by
  induction ps generalizing idx with
  | nil => simp at hj
  | cons p ps ih =>
    have h1 : p.shape.getD n 0 = 1 := by
      rw [hp p (by simp), List.getD_eq_getElem?_getD]
      simp [hn]
    simp only [concatGet, h1]
    by_cases h0 : idx.getD n 0 = 0
    · rw [if_pos (by omega)]
      simp only [h0, List.getElem_cons_zero]
      congr 1
      have : idx[n] = 0 := by
        rw [List.getD_eq_getElem?_getD, List.getElem?_eq_getElem hi] at h0
        exact h0
      rw [← this, List.set_getElem_self]
    · rw [if_neg (by omega)]
      have hg : (idx.set n (idx.getD n 0 - 1)).getD n 0 = idx.getD n 0 - 1 := by
        rw [List.getD_eq_getElem?_getD]
        simp [hi]
      rw [ih (fun q hq => hp q (by simp [hq])) _ (by simpa using hi) (by
        rw [hg]; simp only [List.length_cons] at hj; omega)]
      simp only [hg, List.set_set]
      congr 1
      rw [List.getElem_cons, dif_neg h0]

theorem concat_ones {α : Type} [Inhabited α] {n : Nat} {S : List Nat} (hn : n < S.length)
    (ps : List (NDArr α)) (hp : ∀ p ∈ ps, p.shape = S.set n 1) (hne : ps ≠ [])
    (hlen : ps.length = S.getD n 0) :
    ∃ r, concat n ps = .ok r ∧ r.shape = S ∧
      ∀ k (_ : InB S k), ∃ h : k.getD n 0 < ps.length, r.get k = (ps[k.getD n 0]'h).get (k.set n 0) := by
  cases ps with
  | nil => exact absurd rfl hne
  | cons p ps =>
    have hsum : ((p :: ps).map fun d => d.shape.getD n 0).sum = (p :: ps).length := by
      rw [List.map_congr_left (g := fun _ => 1)]
      · simp; omega
      · intro q hq
        rw [hp q hq, List.getD_eq_getElem?_getD]
        simp [hn]
    have hS : p.shape.set n (p :: ps).length = S := by
      rw [hp p (by simp), List.set_set, hlen, List.getD_eq_getElem?_getD,
        List.getElem?_eq_getElem hn]
      exact List.set_getElem_self hn
    refine ⟨ofFn S (concatGet n (p :: ps)), ?_, rfl, ?_⟩
    · simp only [concat]
      have hcond : (∀ d ∈ ps, d.shape.set n 0 = p.shape.set n 0) ∧ n < p.shape.length := by
        refine ⟨fun d hd => ?_, ?_⟩
        · rw [hp d (by simp [hd]), hp p (by simp)]
        · rw [hp p (by simp), List.length_set]; exact hn
      rw [if_pos hcond, hsum, hS]
    · intro k hk
      have hkn : k.getD n 0 < (p :: ps).length := by
        rw [hlen]; exact (InB_iff_getD.1 hk).2 n hn
      refine ⟨hkn, ?_⟩
      rw [get_ofFn _ hk]
      exact concatGet_ones hn _ hp k (by rw [hk.length]; exact hn) hkn

variable {K : Type} [Field K] [LinearOrder K]

theorem column_slab (c : NDArr (Fl K)) {M n : Nat} {D : List Nat} (hc : c.shape = M :: D)
    {j : Nat} {k : List Nat} (hk : InB (D.set n 1) k) :
    column (c.slab (n + 1) j) k = column c (k.set n (k.getD n 0 + j)) := by
  unfold column
  have hs : (c.slab (n + 1) j).shape = M :: D.set n 1 := by simp [slab, hc]
  rw [hs, hc]
  simp only [List.getD_cons_zero]
  apply List.map_congr_left
  intro i hi
  have hin : InB (c.shape.set (n + 1) 1) (i :: k) := by
    rw [hc]
    exact List.Forall₂.cons (List.mem_range.1 hi) hk
  unfold slab
  rw [get_ofFn _ hin]
  simp

theorem inB_set_zero {S k : List Nat} {n : Nat} (hk : InB S k) : InB (S.set n 1) (k.set n 0) := by
  induction n generalizing S k with
  | zero => cases hk with
    | nil => exact List.Forall₂.nil
    | cons _ h => exact List.Forall₂.cons (by omega) h
  | succ n ih => cases hk with
    | nil => exact List.Forall₂.nil
    | cons a h => exact List.Forall₂.cons a (ih h)

/-- ranks for every worker count, map axis and draw: an offset of at most the number of ties -/
theorem rankAll_spec (workers : Nat) (mapAxis : Int) (draw : Nat → Nat → Nat → Nat)
    (c : NDArr (Fl K)) {M : Nat} {D : List Nat} (hc : c.shape = M :: D)
    (hw : MapOK workers mapAxis D) :
    ∃ r, rankAll workers mapAxis draw c = .ok r ∧ r.shape = D ∧
      ∀ k, InB D k → ∃ e ≤ tiesCol (column c k),
        r.get k = (rankCol (column c k)).map fun x => x + e := by
  have hct : c.shape.tail = D := by rw [hc]; rfl
  by_cases h1 : workers = 1
  · refine ⟨rankdata (draw 0) c, by unfold rankAll; rw [if_pos h1], hct, ?_⟩
    intro k hk
    exact (rankdata_spec (draw 0) c (by rw [hct]; exact hk)).2
  · obtain ⟨hneg, hlo, hne⟩ := hw.resolve_left h1
    have hcn : (c.ndim : Int) = D.length + 1 := by
      unfold ndim; rw [hc]; simp
    set n := axisNum D.length mapAxis with hn
    have hn' : (n : Int) = mapAxis + D.length := by
      rw [hn]; unfold axisNum; rw [if_pos hneg]; omega
    have hnl : n < D.length := by omega
    have hN : (mapAxis + (c.ndim : Int)).toNat = n + 1 := by omega
    have hgetD : c.shape.getD (n + 1) 0 = D.getD n 0 := by rw [hc]; simp
    set ps := ((c.splitOnes (n + 1)).zipIdx.map fun p => rankdata (draw p.2) p.1) with hps
    have hlen : ps.length = D.getD n 0 := by
      rw [hps, List.length_map, List.length_zipIdx]; unfold splitOnes; rw [List.length_map, List.length_range, hgetD]
    have hget : ∀ j (hj : j < ps.length), ps[j] = rankdata (draw j) (c.slab (n + 1) j) := by
      intro j hj
      simp [hps, splitOnes]
    have hshape : ∀ p ∈ ps, p.shape = D.set n 1 := by
      intro p hp
      obtain ⟨j, hj, rfl⟩ := List.mem_iff_getElem.1 hp
      rw [hget j hj]
      simp [rankdata, slab, hc]
    have hpne : ps ≠ [] := by
      intro h0
      rw [h0] at hlen
      exact hne hlen.symm
    obtain ⟨r, r1, r2, r3⟩ := concat_ones hnl ps hshape hpne hlen
    refine ⟨r, ?_, r2, ?_⟩
    · unfold rankAll
      rw [if_neg h1, if_pos hneg, if_pos (by omega)]
      simp only [hN, hgetD]
      rw [if_neg hne, ← hps]
      cases hps2 : ps with
      | nil => exact absurd hps2 hpne
      | cons p ps' =>
        simp only [concatAx]
        have hpn : p.ndim = D.length := by
          unfold ndim; rw [hshape p (by rw [hps2]; simp)]; simp
        rw [hpn, normAxis_ok ⟨hlo, by omega⟩, ← hn]
        simp only [bind, Except.bind]
        rw [← hps2]; exact r1
    · intro k hk
      obtain ⟨hj, hk2⟩ := r3 k hk
      rw [hk2, hget _ hj]
      have hk0 : InB (D.set n 1) (k.set n 0) := inB_set_zero hk
      have hst : (c.slab (n + 1) (k.getD n 0)).shape.tail = D.set n 1 := by simp [slab, hc]
      obtain ⟨-, e, he, hr⟩ := rankdata_spec (draw (k.getD n 0)) (c.slab (n + 1) (k.getD n 0))
        (k := k.set n 0) (by rw [hst]; exact hk0)
      have hcol : column (c.slab (n + 1) (k.getD n 0)) (k.set n 0) = column c k := by
        rw [column_slab c hc hk0]
        congr 1
        have hkl : n < k.length := by rw [hk.length]; exact hnl
        rw [List.set_set]
        have : (k.set n 0).getD n 0 = 0 := by
          rw [List.getD_eq_getElem?_getD]; simp [hkl]
        rw [this, Nat.zero_add, List.getD_eq_getElem?_getD, List.getElem?_eq_getElem hkl]
        exact List.set_getElem_self hkl
      rw [hcol] at he hr
      exact ⟨e, he, hr⟩

/-- the observation row on top of the members -/
theorem mergeObs_spec (f o : NDArr (Fl K)) {ax : Int} (hax : AxisOK f.shape.length ax)
    (ho : o.shape = posShape f.shape ax) (hne : o.shape ≠ []) :
    ∃ c, mergeObs f o ax = .ok c ∧
      c.shape = (f.shape.getD (axisNum f.shape.length ax) 0 + 1) :: o.shape ∧
      ∀ k, InB o.shape k → column c k = o.get k :: membersAt f ax k := by
  have hlt := axisNum_lt hax
  obtain ⟨m, m1, m2, m3⟩ := moveaxis_front f hax
  obtain ⟨e, e1, e2, e3⟩ := expandDims_spec o (N := o.shape.length + 1) (ax := 0) rfl
    ⟨by omega, by omega⟩
  have h00 : axisNum (o.shape.length + 1) 0 = 0 := by simp [axisNum]
  rw [h00] at e2 e3
  simp only [List.insertIdx_zero] at e2 e3
  have ho' : f.shape.eraseIdx (axisNum f.shape.length ax) = o.shape := ho.symm
  rw [ho'] at m2 m3
  obtain ⟨c, c1, c2, c3, c4⟩ := concat_row e m (n := 0) (by rw [m2]; simp) (by
    rw [e2, m2]; simp)
  rw [m2] at c2 c3 c4
  simp only [List.eraseIdx_cons_zero, List.insertIdx_zero, List.getD_cons_zero] at c2 c3 c4
  refine ⟨c, ?_, c2, ?_⟩
  · have a1 : atleast2d e = .ok e := by
      unfold atleast2d
      rw [e2]
      cases hos : o.shape with
      | nil => exact absurd hos hne
      | cons a t => rfl
    have a2 : atleast2d m = .ok m := by
      unfold atleast2d
      rw [m2]
      cases hos : o.shape with
      | nil => exact absurd hos hne
      | cons a t => rfl
    unfold mergeObs vstack
    rw [e1, m1]
    simp only [bind, Except.bind, a1, a2]
    exact c1
  · intro k hk
    unfold column membersAt
    rw [c2, fiber_single f hlt (by rw [dropAxes_single hlt, ho']; exact hk)]
    simp only [List.getD_cons_zero]
    rw [List.range_succ_eq_map, List.map_cons, List.map_map]
    congr 1
    · rw [c3 k hk, e3 k hk]
    · apply List.map_congr_left
      intro j hj
      have hj' := List.mem_range.1 hj
      simp only [Function.comp, Nat.succ_eq_add_one]
      rw [c4 k j hk hj', m3 k j hk hj']

end Lemmas
