import Verif.Model.Dist
import Verif.Lemmas.Rank
import Verif.Spec.Ensemble

/-! Helper lemmas for distribution functions. -/

set_option linter.unusedSectionVars false

namespace Model
open Np NDArr Lemmas Spec

variable {K : Type} [Field K] [LinearOrder K] [IsStrictOrderedRing K]

theorem elementwise_ok (g : List (Fl K) → Fl K) {ps : List (NDArr (Fl K))} {s : List Nat}
    (hne : ps ≠ []) (hs : ∀ p ∈ ps, p.shape = s) :
    elementwise g ps = .ok (ofFn s fun k => g (ps.map fun q => q.get k)) := by
  have hb : bcShapes (ps.map NDArr.shape) = some s :=
    bcShapes_same (by simpa using hne) (by
      intro t ht
      obtain ⟨q, hq, rfl⟩ := List.mem_map.1 ht
      exact hs q hq)
  unfold elementwise
  split
  · exact absurd rfl hne
  · rw [hb]
    simp only [Except.ok.injEq]
    refine ext' rfl ?_
    simp only [ofFn]
    refine List.map_congr_left fun k hk => ?_
    congr 1
    refine List.map_congr_left fun q hq => ?_
    rw [hs q hq, bcIdx_self (mem_allIdx.1 hk)]

theorem runElems_ok (masked : Bool) (g : List (Fl K) → Fl K) {ps : List (NDArr (Fl K))} {s : List Nat}
    (hne : ps ≠ []) (hs : ∀ p ∈ ps, p.shape = s) :
    runElems masked g ps = .ok (ofFn s fun k => g (ps.map fun q => q.get k)) := by
  have hsh : ps.map NDArr.shape = List.replicate ps.length s := by
    rw [List.eq_replicate_iff]
    refine ⟨by simp, fun t ht => ?_⟩
    obtain ⟨q, hq, rfl⟩ := List.mem_map.1 ht
    exact hs q hq
  have hl : ps.length ≠ 0 := by simpa using hne
  unfold runElems
  rw [if_neg (by
    rintro ⟨-, h⟩
    apply h
    rw [hsh, List.head?_replicate, List.getLast?_replicate]), elementwise_ok g hne hs]

theorem splitZip_ok {mapAxis : Int} {ps : List (NDArr (Fl K))} {s : List Nat} {n : Nat} (hne : ps ≠ [])
    (hs : ∀ p ∈ ps, p.shape = s) (hnorm : normAxis s.length mapAxis = .ok n) (hpos : s.getD n 0 ≠ 0) :
    splitZip mapAxis ps = .ok ((List.range (s.getD n 0)).map fun j => ps.map fun q => q.slab n j) := by
  have hcols : mapE (splitOne mapAxis) ps =
      .ok (ps.map fun q => (List.range (s.getD n 0)).map fun j => q.slab n j) := by
    rw [mapE_eq_map]
    intro q hq
    simp only [splitOne, ndim, hs q hq, hnorm]
    rw [if_neg hpos]
  have hlen : ((ps.map fun q => (List.range (s.getD n 0)).map fun j => q.slab n j).map List.length) =
      List.replicate ps.length (s.getD n 0) := by
    rw [List.eq_replicate_iff]
    refine ⟨by simp, fun t ht => ?_⟩
    simp only [List.map_map, List.mem_map, Function.comp] at ht
    obtain ⟨q, -, rfl⟩ := ht
    simp
  have hl : ps.length ≠ 0 := by simpa using hne
  unfold splitZip
  rw [hcols]
  simp only [bind, Except.bind, pure, Except.pure, Except.ok.injEq]
  rw [hlen]
  have hmin : (List.replicate ps.length (s.getD n 0)).min?.getD 0 = s.getD n 0 := by
    rw [List.min?_replicate_of_pos (by omega)]
    rfl
  rw [hmin]
  refine List.map_congr_left fun j hj => ?_
  rw [List.map_map]
  refine List.map_congr_left fun q _ => ?_
  have hj' : j < s.getD n 0 := by simpa using hj
  generalize s.getD n 0 = d at hj'
  simp [hj']

/-- splitting along an axis, working elementwise on each piece and joining the results is the same as working on the
whole arrays -/
theorem parallelCdf_ok (masked : Bool) {workers mapAxis : Int} (hw : 1 < workers) (hax : mapAxis < 0)
    (g : List (Fl K) → Fl K) {ps : List (NDArr (Fl K))} {s : List Nat} (hne : ps ≠ [])
    (hs : ∀ p ∈ ps, p.shape = s) (hlo : -(s.length : Int) ≤ mapAxis)
    (hpos : s.getD (mapAxis + s.length).toNat 0 ≠ 0) :
    parallelCdf masked workers mapAxis g ps = .ok (ofFn s fun k => g (ps.map fun q => q.get k)) := by
  set n := (mapAxis + s.length).toNat with hn
  have hnl : n < s.length := by omega
  have hnorm : normAxis s.length mapAxis = .ok n := by
    unfold normAxis; rw [if_pos (by omega), if_pos hax]
  have hsz := splitZip_ok hne hs hnorm hpos
  have hpiece : ∀ j, ∀ q ∈ ps.map (fun q => q.slab n j), q.shape = s.set n 1 := by
    intro j q hq
    obtain ⟨p, hp, rfl⟩ := List.mem_map.1 hq
    simp [slab, hs p hp]
  have hres : mapE (runElems masked g) ((List.range (s.getD n 0)).map fun j => ps.map fun q => q.slab n j) =
      .ok ((List.range (s.getD n 0)).map fun j => ofFn (s.set n 1) fun k =>
        g ((ps.map fun q => q.slab n j).map fun q => q.get k)) := by
    rw [mapE_map, mapE_eq_map]
    intro j _
    exact runElems_ok masked g (by simpa using hne) (hpiece j)
  unfold parallelCdf
  rw [hsz]
  simp only [bind, Except.bind]
  rw [if_pos (by omega), if_pos hax, hres]
  simp only
  set res := (List.range (s.getD n 0)).map fun j => ofFn (s.set n 1) fun k =>
        g ((ps.map fun q => q.slab n j).map fun q => q.get k) with hresd
  have hrl : res.length = s.getD n 0 := by simp [hresd]
  have hrs : ∀ p ∈ res, p.shape = s.set n 1 := by
    intro p hp
    obtain ⟨j, _, rfl⟩ := List.mem_map.1 hp
    rfl
  have hrne : res ≠ [] := by
    intro h0
    rw [h0] at hrl
    exact hpos hrl.symm
  obtain ⟨r, r1, r2, r3⟩ := concat_ones hnl res hrs hrne hrl
  have hcat : concatAx mapAxis res = .ok r := by
    cases hr : res with
    | nil => exact absurd hr hrne
    | cons p rest =>
      have hpn : p.ndim = s.length := by
        unfold ndim; rw [hrs p (by rw [hr]; simp)]; simp
      simp only [concatAx, hpn, hnorm, bind, Except.bind]
      rw [← hr]; exact r1
  rw [hcat]
  congr 1
  apply ext_get (by rw [r2]; rfl)
  intro k hk
  rw [r2] at hk
  obtain ⟨hj, hk2⟩ := r3 k hk
  rw [hk2, get_ofFn _ hk]
  have hk0 : InB (s.set n 1) (k.set n 0) := inB_set_zero hk
  have : res[k.getD n 0]'hj = ofFn (s.set n 1) fun k' =>
        g ((ps.map fun q => q.slab n (k.getD n 0)).map fun q => q.get k') := by
    simp [hresd]
  rw [this, get_ofFn _ hk0, List.map_map]
  congr 1
  apply List.map_congr_left
  intro q hq
  simp only [Function.comp, slab]
  rw [hs q hq, get_ofFn _ hk0]
  congr 1
  have hkl : n < k.length := by rw [hk.length]; exact hnl
  rw [List.set_set]
  have : (k.set n 0).getD n 0 = 0 := by
    rw [List.getD_eq_getElem?_getD]; simp [hkl]
  rw [this, Nat.zero_add, List.getD_eq_getElem?_getD, List.getElem?_eq_getElem hkl]
  simp

/-- the worker settings under which samples can be drawn for arrays of shape `s`: one worker, or a pool with an axis to
split along -/
def PoolRuns (workers mapAxis : Int) (s : List Nat) : Prop :=
  workers = 1 ∨ (1 < workers ∧ mapAxis < 0 ∧ -(s.length : Int) ≤ mapAxis ∧
    s.getD (mapAxis + s.length).toNat 0 ≠ 0)

/-- the worker settings under which the distribution functions can be computed on arrays of shape `s`: one worker and
at least one axis, or a pool with an axis to split along -/
def PoolOK (workers mapAxis : Int) (s : List Nat) : Prop :=
  (workers = 1 ∧ s ≠ []) ∨ (1 < workers ∧ mapAxis < 0 ∧ -(s.length : Int) ≤ mapAxis ∧
    s.getD (mapAxis + s.length).toNat 0 ≠ 0)

theorem broadcastBelow_ok {b : Thr K} {s : List Nat} (h : ThrOK b s) :
    ∃ a, broadcastBelow s b = .ok a ∧ a.shape = s ∧ ∀ k, InB s k → a.get k = thrAt b k := by
  cases b with
  | scalar v => exact ⟨full s v, rfl, rfl, fun k hk => get_full v hk⟩
  | array a =>
    have h' : a.shape = s := h
    exact ⟨a, by simp [broadcastBelow, h'], h', fun _ _ => rfl⟩
  | other => exact absurd h (by simp [ThrOK])

theorem cdfGeneric_ok {masked : Bool} {ref : List Nat} {workers mapAxis : Int} (serial wrapper : List (Fl K) → Fl K)
    {params : List (NDArr (Fl K))} {s : List Nat} (href : ref = s) (hs : ∀ p ∈ params, p.shape = s)
    {b : Thr K} (hb : ThrOK b s) (hpool : PoolOK workers mapAxis s) :
    ∃ r, cdfGeneric masked ref workers mapAxis serial wrapper params b = .ok r ∧ r.shape = s ∧
      ∀ k, InB s k → r.get k = clip01 ((if workers = 1 then serial else wrapper)
        (params.map (fun q => q.get k) ++ [thrAt b k])) := by
  obtain ⟨a, ha, hash, hag⟩ := broadcastBelow_ok hb
  have hall : ∀ p ∈ params ++ [a], p.shape = s := by
    intro p hp
    rcases List.mem_append.1 hp with h | h
    · exact hs p h
    · simp only [List.mem_singleton] at h; rw [h]; exact hash
  refine ⟨(ofFn s fun k => (if workers = 1 then serial else wrapper)
      ((params ++ [a]).map fun q => q.get k)).map clip01, ?_, rfl, ?_⟩
  · unfold cdfGeneric
    simp only [href, ha, bind, Except.bind]
    have hne : s ≠ [] := by
      rcases hpool with h1 | ⟨h1, h2, h3, h4⟩
      · exact h1.2
      · intro h; rw [h] at h3; simp at h3; omega
    rcases hpool with ⟨h1, -⟩ | ⟨h1, h2, h3, h4⟩
    · rw [if_pos h1, runElems_ok masked serial (by simp) hall]
      simp [h1, hne, pure, Except.pure]
    · rw [if_neg (by omega), parallelCdf_ok masked h1 h2 wrapper (by simp) hall h3 h4]
      simp [if_neg (show ¬ workers = 1 by omega), hne, pure, Except.pure]
  · intro k hk
    rw [get_map _ _ (by exact hk), get_ofFn _ hk, List.map_append, List.map_singleton, hag k hk]

theorem cdfGeneric_clip {masked : Bool} {ref : List Nat} {workers mapAxis : Int} {serial wrapper : List (Fl K) → Fl K}
    {params : List (NDArr (Fl K))} {b : Thr K} {r : NDArr (Fl K)}
    (h : cdfGeneric masked ref workers mapAxis serial wrapper params b = .ok r) :
    ∃ p : NDArr (Fl K), r = p.map clip01 := by
  unfold cdfGeneric at h
  simp only [bind, Except.bind] at h
  split at h
  · cases h
  · split at h
    · split at h
      · cases h
      · rename_i p _
        split at h
        · cases h
        · exact ⟨p, by cases h; rfl⟩
    · split at h
      · cases h
      · rename_i p _
        split at h
        · cases h
        · exact ⟨p, by cases h; rfl⟩

theorem clip01_range {x : Fl K} {v : K} (h : clip01 x = some v) : 0 ≤ v ∧ v ≤ 1 := by
  cases x with
  | none => simp [clip01, Fl.lt] at h
  | some x =>
    simp only [clip01, Fl.lt] at h
    by_cases h0 : x < 0
    · simp [h0, not_lt.2 (zero_le_one (α := K))] at h; subst h; exact ⟨le_rfl, zero_le_one⟩
    · simp only [h0, decide_false, Bool.false_eq_true, if_false] at h
      by_cases h1 : 1 < x
      · simp [h1] at h; subst h; exact ⟨zero_le_one, le_rfl⟩
      · simp [h1] at h; subst h; exact ⟨not_lt.1 h0, not_lt.1 h1⟩

theorem clip01_id {v : K} (h0 : 0 ≤ v) (h1 : v ≤ 1) : clip01 (some v) = some v := by
  simp [clip01, Fl.lt, not_lt.2 h0, not_lt.2 h1]

end Model
