import Verif.Props.Average
import Verif.Props.Dist

/-!
# Sampled ensembles: C42
-/

set_option linter.unusedSectionVars false

namespace Props
open Np NDArr Model Spec Lemmas

variable {K : Type} [Field K] [LinearOrder K] [IsStrictOrderedRing K]

/-- `np.moveaxis(a, 0, ax)` -/
theorem moveaxis_back {α : Type} [Inhabited α] (a : NDArr α) {n : Nat} {s : List Nat} (hs : a.shape = n :: s)
    {ax : Int} (hax : AxisOK (s.length + 1) ax) :
    ∃ c, a.moveaxis 0 ax = .ok c ∧ c.shape = s.insertIdx (axisNum (s.length + 1) ax) n ∧
      ∀ k m, InB s k → m < n → c.get (k.insertIdx (axisNum (s.length + 1) ax) m) = a.get (m :: k) := by
  have hl : a.shape.length = s.length + 1 := by rw [hs]; rfl
  have hlt := axisNum_lt hax
  set d := axisNum (s.length + 1) ax with hd
  have h0 : normAxis a.shape.length 0 = .ok 0 := by
    unfold normAxis
    rw [if_pos (by omega)]; rfl
  refine ⟨a.transpose (moveOrder a.shape.length 0 d), ?_, ?_, ?_⟩
  · unfold moveaxis
    rw [show a.ndim = a.shape.length from rfl, h0, hl, normAxis_ok hax, ← hd]; rfl
  · rw [shape_transpose, map_moveOrder a.shape rfl (by omega), hs]; rfl
  · intro k m hk hm
    have hi : InB a.shape (m :: k) := by rw [hs]; exact List.Forall₂.cons hm hk
    have h1 := get_transpose a (moveOrder_perm (s := 0) (d := d) (by omega) (by omega)) hi
    rw [map_moveOrder _ hi.length (by omega)] at h1
    exact h1

/-- the draw behind member `m` at position `k` -/
def drawAt (workers mapAxis : Int) (draw : Nat → Nat → List Nat → Fl K) (s : List Nat) (m : Nat) (k : List Nat) :
    Fl K :=
  if workers = 1 then draw 0 m k
  else draw (k.getD (mapAxis + s.length).toNat 0) m (k.set (mapAxis + s.length).toNat 0)

/-- sampling puts the member axis where requested and fills every position with its own draws -/
theorem sampleDist_ok {workers mapAxis : Int} (draw : Nat → Nat → List Nat → Fl K)
    {params : List (NDArr (Fl K))} {s : List Nat} (hne : params ≠ []) (hs : ∀ p ∈ params, p.shape = s)
    (n : Nat) {moveAxis : Int} (hax : AxisOK (s.length + 1) moveAxis) (hpool : PoolRuns workers mapAxis s) :
    ∃ ens, sampleDist workers mapAxis draw params n moveAxis = .ok ens ∧
      ens.shape = s.insertIdx (axisNum (s.length + 1) moveAxis) n ∧
      ∀ k m, InB s k → m < n → ens.get (k.insertIdx (axisNum (s.length + 1) moveAxis) m) =
        drawAt workers mapAxis draw s m k := by
  cases params with
  | nil => exact absurd rfl hne
  | cons p rest =>
  have hp : p.shape = s := hs p (by simp)
  have hrest : ∀ q ∈ rest, q.shape = p.shape := fun q hq => by rw [hs q (by simp [hq]), hp]
  -- the array before the member axis is moved
  have hens : ∃ e0 : NDArr (Fl K), e0.shape = n :: s ∧
      (∀ k m, InB s k → m < n → e0.get (m :: k) = drawAt workers mapAxis draw s m k) ∧
      sampleDist workers mapAxis draw (p :: rest) n moveAxis =
        if moveAxis ≠ 0 then e0.moveaxis 0 moveAxis else .ok e0 := by
    rcases hpool with h1 | ⟨h1, h2, h3, h4⟩
    · refine ⟨ofFn (n :: s) fun idx => draw 0 (idx.getD 0 0) idx.tail, rfl, ?_, ?_⟩
      · intro k m hk hm
        rw [get_ofFn _ (List.Forall₂.cons hm hk)]
        simp [drawAt, h1]
      · unfold sampleDist
        simp only []
        rw [if_pos hrest, if_pos h1]
        simp only [hp, bind, Except.bind, pure, Except.pure]
    · set na := (mapAxis + s.length).toNat with hna
      have hnl : na < s.length := by omega
      have hnorm : normAxis s.length mapAxis = .ok na := by
        unfold normAxis; rw [if_pos (by omega), if_pos h2]
      have hnorm1 : normAxis (s.length + 1) mapAxis = .ok (na + 1) := by
        unfold normAxis
        rw [if_pos (by omega), if_pos h2]
        congr 1; omega
      let rvs : Nat → List Nat → NDArr (Fl K) := fun j s => ofFn (n :: s) fun idx => draw j (idx.getD 0 0) idx.tail
      let res : List (NDArr (Fl K)) := (List.range (s.getD na 0)).map fun j => rvs j (s.set na 1)
      have hrl : res.length = (n :: s).getD (na + 1) 0 := by simp [res]
      have hrs : ∀ q ∈ res, q.shape = (n :: s).set (na + 1) 1 := by
        intro q hq
        obtain ⟨j, _, rfl⟩ := List.mem_map.1 hq
        rfl
      have hrne : res ≠ [] := by
        intro h0
        rw [h0] at hrl
        exact h4 hrl.symm
      obtain ⟨r, r1, r2, r3⟩ := concat_ones (S := n :: s) (by simp; omega) res hrs hrne hrl
      have hcat : concatAx mapAxis res = .ok r := by
        cases hr : res with
        | nil => exact absurd hr hrne
        | cons q qs =>
          have hpn : q.ndim = s.length + 1 := by
            unfold ndim; rw [hrs q (by rw [hr]; simp)]; simp
          simp only [concatAx, hpn, hnorm1, bind, Except.bind]
          rw [← hr]; exact r1
      refine ⟨r, r2, ?_, ?_⟩
      · intro k m hk hm
        have hmk : InB (n :: s) (m :: k) := List.Forall₂.cons hm hk
        obtain ⟨hj, h5⟩ := r3 _ hmk
        rw [h5]
        have hset : InB (n :: s.set na 1) (m :: k.set na 0) := by
          have := inB_set_zero (n := na + 1) hmk
          simpa using this
        simp only [res, List.getElem_map, List.getElem_range, rvs, List.set_cons_succ, List.getD_cons_succ]
        rw [get_ofFn _ hset]
        simp only [List.getD_cons_zero, List.tail_cons, drawAt, ← hna]
        rw [if_neg (by omega)]
      · have hsz := splitZip_ok (ps := p :: rest) (s := s) (by simp) (by
          intro q hq
          rcases List.mem_cons.1 hq with rfl | hq
          · exact hp
          · exact (hrest q hq).trans hp) hnorm h4
        have hpieces : ((List.range (s.getD na 0)).map fun j => (p :: rest).map fun q => q.slab na j).zipIdx.map
            (fun q => rvs q.2 (q.1.headD p).shape) = res := by
          apply List.ext_getElem
          · simp [res]
          · intro i h5 h6
            simp [res, slab, hp]
        unfold sampleDist
        simp only []
        rw [if_pos hrest, if_neg (by omega), hsz]
        simp only [bind, Except.bind]
        rw [if_pos (by omega), if_pos h2]
        have hcat' : concatAx mapAxis (((List.range (s.getD na 0)).map fun j =>
            (p :: rest).map fun q => q.slab na j).zipIdx.map (fun q => rvs q.2 (q.1.headD p).shape)) = .ok r := by
          rw [hpieces]; exact hcat
        simp only [rvs] at hcat'
        rw [hcat']
        rfl
  obtain ⟨e0, e1, e2, e3⟩ := hens
  rw [e3]
  by_cases h0 : moveAxis = 0
  · rw [if_neg (by simpa using h0)]
    have : axisNum (s.length + 1) moveAxis = 0 := by rw [h0]; rfl
    rw [this]
    exact ⟨e0, rfl, by rw [e1]; rfl, fun k m hk hm => e2 k m hk hm⟩
  · rw [if_pos h0]
    obtain ⟨c, c1, c2, c3⟩ := moveaxis_back e0 e1 hax
    exact ⟨c, c1, c2, fun k m hk hm => by rw [c3 k m hk hm, e2 k m hk hm]⟩

/-- clipping a member -/
def clipMember (clip : Option K) (x : Fl K) : Fl K :=
  match clip, x with
  | some c, some v => if v < c then some 0 else some v
  | _, x => x

/-- **C42** (layout): `prob_to_ens` returns `n` members per position, with the member axis at the requested place; the
members of a position are its own (clipped) draws, for every worker setting. -/
theorem C42_layout {workers mapAxis : Int} (draw : Nat → Nat → List Nat → Fl K)
    {params : List (NDArr (Fl K))} {s : List Nat} (hne : params ≠ []) (hs : ∀ p ∈ params, p.shape = s)
    (n : Nat) {moveAxis : Int} (hax : AxisOK (s.length + 1) moveAxis) (hpool : PoolRuns workers mapAxis s)
    (clip : Option K) :
    ∃ ens, probToEns workers mapAxis draw params (some n) moveAxis clip = .ok ens ∧
      posShape ens.shape moveAxis = s ∧ ens.shape.getD (axisNum ens.shape.length moveAxis) 0 = n ∧
      ens.shape.length = s.length + 1 ∧
      ∀ k, InB s k → membersAt ens moveAxis k =
        (List.range n).map fun m => clipMember clip (drawAt workers mapAxis draw s m k) := by
  obtain ⟨e, e1, e2, e3⟩ := sampleDist_ok draw hne hs n hax hpool
  have hlt := axisNum_lt hax
  have hle : axisNum (s.length + 1) moveAxis ≤ s.length := by omega
  have hlen : (s.insertIdx (axisNum (s.length + 1) moveAxis) n).length = s.length + 1 :=
    List.length_insertIdx_of_le_length hle n
  have key : ∃ ens : NDArr (Fl K), probToEns workers mapAxis draw params (some n) moveAxis clip = .ok ens ∧
      ens.shape = e.shape ∧ ∀ i, InB e.shape i → ens.get i = clipMember clip (e.get i) := by
    unfold probToEns
    simp only [e1, bind, Except.bind]
    cases clip with
    | none => exact ⟨e, rfl, rfl, fun _ _ => rfl⟩
    | some c =>
      refine ⟨_, rfl, rfl, fun i hi => ?_⟩
      rw [get_map _ _ hi]
      cases e.get i with
      | none => simp [clipMember, Fl.lt]
      | some v => simp [clipMember, Fl.lt]
  obtain ⟨ens, h1, h2, h3⟩ := key
  have hsh : ens.shape = s.insertIdx (axisNum (s.length + 1) moveAxis) n := by rw [h2, e2]
  have hl : ens.shape.length = s.length + 1 := by rw [hsh]; exact hlen
  refine ⟨ens, h1, ?_, ?_, hl, ?_⟩
  · unfold posShape
    rw [hl, hsh, eraseIdx_insertIdx']
  · rw [hl, hsh, getD_insertIdx_self hle]
  · intro k hk
    unfold membersAt
    rw [hl]
    have hd : dropAxes [axisNum (s.length + 1) moveAxis] ens.shape = s := by
      rw [dropAxes_single (by omega), hsh, eraseIdx_insertIdx']
    rw [fiber_single ens (by omega) (by rw [hd]; exact hk), hsh, getD_insertIdx_self hle]
    apply List.map_congr_left
    intro m hm
    have hm' := List.mem_range.1 hm
    rw [h3 _ (by rw [e2]; exact inB_insertIdx hk hm'), e3 k m hk hm']

/-- **C42** (clipping): with `clip_member_to_zero = c` every member of every position is NaN, 0, or at least `c`. -/
theorem C42_clipped {workers mapAxis : Int} (draw : Nat → Nat → List Nat → Fl K)
    {params : List (NDArr (Fl K))} {n : Option Nat} {moveAxis : Int} (c : K) {ens : NDArr (Fl K)}
    (h : probToEns workers mapAxis draw params n moveAxis (some c) = .ok ens) :
    ∀ i, InB ens.shape i → ens.get i = none ∨ ens.get i = some 0 ∨ ∃ v, ens.get i = some v ∧ c ≤ v := by
  cases n with
  | none => cases h
  | some n =>
    unfold probToEns at h
    simp only [bind, Except.bind, pure, Except.pure] at h
    split at h
    · cases h
    · rename_i e _
      injection h with h
      subst h
      intro i hi
      replace hi : InB e.shape i := hi
      rw [get_map _ _ hi]
      cases e.get i with
      | none => left; simp [Fl.lt]
      | some v =>
        right
        by_cases hv : v < c
        · left; simp [Fl.lt, hv]
        · right; exact ⟨v, by simp [Fl.lt, hv], not_lt.1 hv⟩

/-- **C42** (spread, default axis): when the member axis is the last one, `spread()` has the shape of the positions and
is the largest minus the smallest member of each. -/
theorem C42_spread_partial [FloorSemiring K] {workers mapAxis : Int} (skip : Bool) (draw : Nat → Nat → List Nat → Fl K)
    {params : List (NDArr (Fl K))} {s : List Nat} (hne : params ≠ []) (hs : ∀ p ∈ params, p.shape = s)
    (n : Nat) (hn : n ≠ 0) (hpool : PoolRuns workers mapAxis s) (clip : Option K)
    (moveAxis : Int) (hlast : moveAxis = -1 ∨ moveAxis = s.length)
    (hfin : ∀ k, InB s k → ∀ m < n, drawAt workers mapAxis draw s m k ≠ none) :
    ∃ ens spr, probToEns workers mapAxis draw params (some n) moveAxis clip = .ok ens ∧
      probSpread skip ens = .ok spr ∧ spr.shape = s ∧
      ∀ k, InB s k → ∃ M m, spr.get k = some (M - m) ∧ some M ∈ membersAt ens moveAxis k ∧
        some m ∈ membersAt ens moveAxis k ∧ ∀ x, some x ∈ membersAt ens moveAxis k → m ≤ x ∧ x ≤ M := by
  have hax : AxisOK (s.length + 1) moveAxis := by
    rcases hlast with rfl | rfl
    · constructor <;> omega
    · constructor <;> push_cast <;> omega
  obtain ⟨ens, h1, h2, h3, h4, h5⟩ := C42_layout draw hne hs n hax hpool clip
  have hnum : axisNum (s.length + 1) (-1) = axisNum (s.length + 1) moveAxis := by
    rcases hlast with rfl | rfl
    · rfl
    · unfold axisNum
      rw [if_pos (by omega), if_neg (by omega)]
      push_cast; omega
  have hax1 : AxisOK ens.shape.length (-1) := by constructor <;> omega
  have hA : [axisNum ens.shape.length (-1)] = [axisNum ens.shape.length moveAxis] := by rw [h4, hnum]
  have hdrop : dropAxes [axisNum ens.shape.length moveAxis] ens.shape = s := by
    rw [← h2]; unfold posShape
    rw [dropAxes_single (axisNum_lt (by rw [h4]; exact hax))]
  have hC := C61_variance_spread skip ens (-1) hax1 (by
    have : axisNum ens.shape.length (-1) = axisNum ens.shape.length moveAxis := by simpa using hA
    rw [this, h3]; exact hn)
  simp only [hA, hdrop] at hC
  obtain ⟨var, spr, hvar, hspr, hvsh, hsh, hval⟩ := hC
  refine ⟨ens, spr, h1, hspr, hsh, fun k hk => ?_⟩
  have hno : none ∉ fiber ens [axisNum ens.shape.length moveAxis] k := by
    intro hmem
    have : none ∈ membersAt ens moveAxis k := hmem
    rw [h5 k hk] at this
    obtain ⟨m, hm, he⟩ := List.mem_map.1 this
    have hd := hfin k hk m (List.mem_range.1 hm)
    obtain ⟨v, hv⟩ := Option.ne_none_iff_exists'.1 hd
    rw [hv] at he
    cases clip with
    | none => simp [clipMember] at he
    | some c => simp only [clipMember] at he; split at he <;> cases he
  obtain ⟨v, sp, M, m, hv1, hs1, hv2, hv3, hv4, hM, hm, hall, rfl, hs2⟩ := hval k hk hno
  exact ⟨M, m, hs1, hM, hm, hall⟩

/-- **C42** is false for other axes: with the three sampled members in front, `spread()` of forecasts at two positions
has three entries, each the range over the positions of one member. -/
theorem C42_false : ∃ ens spr : NDArr (Fl ℚ),
    probToEns 1 (-1) (fun _ m k => some ((m : ℚ) + 10 * (k.getD 0 0 : ℕ))) [full [2] (some 0), full [2] (some 1)]
      (some 3) 0 none = .ok ens ∧
    ens.shape = [3, 2] ∧ probSpread false ens = .ok spr ∧ spr.shape = [3] ∧ spr.data = [some 10, some 10, some 10] := by
  obtain ⟨ens, h1, h2⟩ := okAnd_iff.1 (show okAnd (probToEns 1 (-1)
    (fun _ m k => some ((m : ℚ) + 10 * (k.getD 0 0 : ℕ))) [full [2] (some 0), full [2] (some 1)] (some 3) 0 none)
    (fun ens => ens.shape = [3, 2] ∧ okAnd (probSpread false ens) (fun spr => spr.shape = [3] ∧
      spr.data = [some 10, some 10, some 10])) by decide +kernel)
  obtain ⟨h3, h4⟩ := of_decide_eq_true h2
  obtain ⟨spr, h5, h6⟩ := okAnd_iff.1 h4
  obtain ⟨h7, h8⟩ := of_decide_eq_true h6
  exact ⟨ens, spr, h1, h3, h5, h7, h8⟩

/-- a sampled ensemble with the members in the middle, drawn by a pool -/
example : okAnd (probToEns 2 (-1) (fun j m k => some ((m : ℚ) + 10 * j + 100 * (k.getD 0 0 : ℕ)))
    [full [2, 2] (some 0), full [2, 2] (some 1)] (some 3) 1 (some 1))
    (fun ens => ens.shape = [2, 3, 2] ∧ membersAt ens 1 [1, 1] = [some 110, some 111, some 112] ∧
      membersAt ens 1 [0, 0] = [some 0, some 1, some 2]) := by decide +kernel

end Props
