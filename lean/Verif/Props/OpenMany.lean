import Verif.Lemmas.OpenMany
import Verif.Props.IO

/-!
# C95–C97: several files opened as one (`open_mfdataset`)
-/

set_option linter.unusedSectionVars false

namespace Props
open Np NDArr Model Spec Lemmas

variable {K : Type} [Field K] [LinearOrder K] [IsStrictOrderedRing K]

/-! ### C95 -/

/-- the files of one run of the analog ensemble: every name has its own rank number, every file can be opened and has the
variables of the others, for its own stations -/
structure Run (read : List Char → Except Err (Block K)) (paths : List (List Char)) (d : List Char → Block K)
    (r : List Char → Int) (n : List Char → Nat) : Prop where
  opened : ∀ p ∈ paths, read p = .ok (d p)
  ranks : ∀ p ∈ paths, rankNumber p = .ok (r p)
  files : ∀ p ∈ paths, RunFile (n p) (d p)
  alike : ∀ p ∈ paths, ∀ q ∈ paths, SameLayout (d p) (d q)
  distinct : paths.Pairwise fun p q => r p ≠ r q

theorem flatMap_sorted {l : List (List Char)} {r : List Char → Int} {n : List Char → Nat}
    (h : l.Pairwise fun p q => r p < r q) :
    (l.flatMap fun p => (stationCoords (r p) (n p) : List K)).Pairwise (· < ·) := by
  rw [List.pairwise_flatMap]
  refine ⟨fun p _ => pairwise_stationCoords _ _, h.imp fun hpq x hx y hy => C60_sorted hpq _ _ hx hy⟩

/-- Opening the files of a run one by one and combining them: the stations of all files are there, in the order of the
rank numbers whatever the order of the files, and every variable with stations holds the values of all files in that
same order; the other variables are those of the file with the lowest rank. -/
theorem C95_stations {read : List Char → Except Err (Block K)} {paths : List (List Char)} {d : List Char → Block K}
    {r : List Char → Int} {n : List Char → Nat} (h : Run read paths d r n) (hne : paths ≠ []) :
    ∃ ds first rest, openAll read addStations paths = .ok ds ∧ (first :: rest).Perm paths ∧
      (first :: rest).Pairwise (fun p q => r p < r q) ∧ "num_stations" ∈ ds.coords ∧
      (∃ c : List K, ds.get? "num_stations" =
          some ⟨[("num_stations", ((first :: rest).map n).sum)], none, .other ⟨[c.length], c.map some, by simp⟩⟩ ∧
        c = ((first :: rest).flatMap fun p => (List.range (n p)).map fun i : Nat => (r p : K) + (i : K) / (n p : K)) ∧
        c.Pairwise (· < ·)) ∧
      ∀ k v, k ≠ "num_stations" → (d first).get? k = some v →
        ∃ w, ds.get? k = some w ∧ Joined ((first :: rest).map d) ((first :: rest).map n).sum k v w := by
  obtain ⟨ds, first, rest, h1, h2, h3, h4, -, -, h5, h6⟩ :=
    openAll_spec h.opened h.ranks h.files h.alike h.distinct hne
  exact ⟨ds, first, rest, h1, h2, h3, h4, ⟨_, h5, rfl, flatMap_sorted h3⟩, h6⟩

/-- what a variable may change in the steps after opening: `num_test_times` may have become `num_times` -/
def Kept {D : Type} (w w' : DVar D) : Prop :=
  w'.data = w.data ∧ (w'.dims = w.dims ∨
    w'.dims = w.dims.map fun x => (if x.1 = "num_test_times" then "num_times" else x.1, x.2))

theorem fillCoords_other {root : Block K} {tab : List (String × String)} {ds ds' : Block K}
    (h : fillCoords root tab ds = .ok ds') {k : String} (hk : k ∉ tab.map Prod.fst) : ds'.get? k = ds.get? k := by
  induction tab generalizing ds with
  | nil => simp only [fillCoords, Except.ok.injEq] at h; rw [h]
  | cons a tab ih =>
    obtain ⟨k', s⟩ := a
    simp only [List.map_cons, List.mem_cons, not_or] at hk
    simp only [fillCoords] at h
    split_ifs at h with hc
    · split at h
      · cases h
      · split at h
        · cases h
        · rename_i v _ ds1 h1
          rw [ih h hk.2]
          unfold setRaw at h1
          split at h1
          · split at h1
            · rw [get_setCoord h1, if_neg hk.1]
            · cases h1
          · rw [get_setCoord h1, if_neg hk.1]
          · cases h1
    · exact ih h hk.2

theorem fillPlaces_cases {roots : Except Err (Block K)} {ds ds' : Block K} (h : fillPlaces roots ds = .ok ds') :
    ((ds.get? "Xs").isSome ∧ ds' = ds) ∨ (ds.get? "Xs" = none ∧ ∃ rt x y, roots = .ok rt ∧ rt.get? "Xs" = some x ∧
      rt.get? "Ys" = some y ∧ ∀ k, ds'.get? k = if k = "Ys" then some ⟨y.dims, none, y.data⟩ else
        if k = "Xs" then some ⟨x.dims, none, x.data⟩ else ds.get? k) := by
  unfold fillPlaces at h
  split_ifs at h with hx
  · simp only [Except.ok.injEq] at h
    exact Or.inl ⟨hx, h.symm⟩
  · refine Or.inr ⟨by simpa using hx, ?_⟩
    cases hr : roots with
    | error e => rw [hr] at h; cases h
    | ok rt =>
      rw [hr] at h
      simp only [bind, Except.bind] at h
      split at h
      · cases h
      · rename_i x h1
        split at h
        · cases h
        · rename_i y h2
          refine ⟨rt, x, y, rfl, h1, h2, ?_⟩
          unfold assignVar at h
          split_ifs at h with h3
          simp only at h
          split_ifs at h with h4
          simp only [Except.ok.injEq] at h
          subst h
          intro k
          unfold Dataset.get?
          simp only [lookup_setVar]

/-- the steps of `open_mfdataset` -/
theorem openMany_cases {expand : List Char → List Char} {glob : List Char → List (List Char)}
    {read root : List Char → Except Err (Block K)} {pre : List Char → Block K → Except Err (Block K)} {p : PyPaths}
    {ds' : Block K} (h : openMany expand glob read root pre p = .ok ds') :
    ∃ first ds rt ds1 ds2, (sortedPaths expand glob p).head? = some first ∧
      openAll read pre (sortedPaths expand glob p) = .ok ds ∧ root first = .ok rt ∧
      fillCoords rt [("num_flts", "FLTs"), ("num_test_times", "test_times")] ds = .ok ds1 ∧
      fillPlaces (openAll root pre (sortedPaths expand glob p)) ds1 = .ok ds2 ∧
      ∀ k w, k ≠ "num_times" → k ≠ "num_test_times" → ds2.get? k = some w → ∃ w', ds'.get? k = some w' ∧ Kept w w' := by
  unfold openMany at h
  simp only [bind, Except.bind] at h
  split at h
  · cases h
  rename_i ds h1
  split at h
  · cases h
  rename_i first l hp
  split at h
  · cases h
  rename_i rt h2
  split at h
  · cases h
  rename_i ds1 h3
  split at h
  · cases h
  rename_i ds2 h4
  refine ⟨first, ds, rt, ds1, ds2, by rw [hp]; rfl, h1, h2, h3, h4, ?_⟩
  intro k w hk1 hk2 hw
  have hu : ∃ u, (⟨unitLoop ds2.vars, ds2.coords⟩ : Block K).get? k = some u ∧ u.dims = w.dims ∧ u.data = w.data := by
    unfold Dataset.get? at hw ⊢
    rw [lookup_unitLoop, hw]
    refine ⟨_, rfl, ?_, ?_⟩ <;> split <;> rfl
  obtain ⟨u, hu1, hu2, hu3⟩ := hu
  split_ifs at h with hc
  · refine ⟨renVar "num_test_times" "num_times" u, by rw [get_rename h, if_neg hk1, if_neg hk2, hu1]; rfl, hu3, Or.inr ?_⟩
    unfold renVar
    simp only [hu2]
    rfl
  · simp only [Except.ok.injEq] at h
    subst h
    exact ⟨u, hu1, hu3, Or.inl hu2⟩

/-- The whole of `open_mfdataset`, when it succeeds on the files of a run: stations are those of all files in the order of
the rank numbers; every variable with stations holds the values of all files in that order; locations that are not in the
group are taken from the root groups in that same order, so that they belong to the same stations. -/
theorem C95_open {expand : List Char → List Char} {glob : List Char → List (List Char)}
    {read root : List Char → Except Err (Block K)} {p : PyPaths} {d e : List Char → Block K} {r : List Char → Int}
    {n : List Char → Nat} (h : Run read (sortedPaths expand glob p) d r n) (he : Run root (sortedPaths expand glob p) e r n)
    {ds' : Block K} (hok : openMany expand glob read root addStations p = .ok ds') :
    ∃ first rest, (first :: rest).Perm (sortedPaths expand glob p) ∧ (first :: rest).Pairwise (fun p q => r p < r q) ∧
      (∃ (v : DVar (NDArr (Fl K))) (c : List K), ds'.get? "num_stations" = some v ∧
        v.data = .other ⟨[c.length], c.map some, by simp⟩ ∧ v.dims = [("num_stations", ((first :: rest).map n).sum)] ∧
        c = ((first :: rest).flatMap fun p => (List.range (n p)).map fun i : Nat => (r p : K) + (i : K) / (n p : K)) ∧
        c.Pairwise (· < ·)) ∧
      (∀ k v, k ∉ ["num_stations", "num_flts", "num_test_times", "num_times", "Xs", "Ys"] → (d first).get? k = some v →
        ∃ w w', ds'.get? k = some w' ∧ Kept w w' ∧ Joined ((first :: rest).map d) ((first :: rest).map n).sum k v w) ∧
      (∀ k v, k = "Xs" ∨ k = "Ys" → ((d first).get? "Xs").isSome → (d first).get? k = some v →
        ∃ w w', ds'.get? k = some w' ∧ Kept w w' ∧ Joined ((first :: rest).map d) ((first :: rest).map n).sum k v w) ∧
      (∀ k, k = "Xs" ∨ k = "Ys" → (d first).get? "Xs" = none →
        ∃ v w w', (e first).get? k = some v ∧ ds'.get? k = some w' ∧ Kept w w' ∧
          Joined ((first :: rest).map e) ((first :: rest).map n).sum k v w) := by
  obtain ⟨f0, ds, rt, ds1, ds2, h0, h1, h2, h3, h4, h5⟩ := openMany_cases hok
  have hne : sortedPaths expand glob p ≠ [] := by
    intro h; rw [h] at h0; cases h0
  obtain ⟨x, first, rest, g1, g2, g3, g4, -, gs, g5, g6⟩ :=
    openAll_spec h.opened h.ranks h.files h.alike h.distinct hne
  obtain ⟨y, first', rest', q1, q2, q3, q4, -, qs, q5, q6⟩ :=
    openAll_spec he.opened he.ranks he.files he.alike he.distinct hne
  have hord : first' :: rest' = first :: rest := by
    refine (q2.trans g2.symm).eq_of_pairwise ?_ q3 g3
    intro a b _ _ hab hba
    exact absurd (lt_trans hab hba) (lt_irrefl _)
  obtain ⟨rfl, rfl⟩ : first' = first ∧ rest' = rest := by simpa using hord
  obtain rfl : ds = x := by rw [h1] at g1; exact Except.ok.inj g1
  have hds1 : ∀ k, k ≠ "num_flts" → k ≠ "num_test_times" → ds1.get? k = ds.get? k := fun k a b =>
    fillCoords_other h3 (by simp [a, b])
  have hX : (ds1.get? "Xs").isSome ↔ ((d first').get? "Xs").isSome := by
    rw [hds1 _ (by decide) (by decide), gs]
    simp
  refine ⟨first', rest', g2, g3, ?_, ?_, ?_, ?_⟩
  · have : ds2.get? "num_stations" = ds.get? "num_stations" := by
      rcases fillPlaces_cases h4 with ⟨-, rfl⟩ | ⟨-, rt, x, y, -, -, -, hg⟩
      · exact hds1 _ (by decide) (by decide)
      · rw [hg, if_neg (by decide), if_neg (by decide)]
        exact hds1 _ (by decide) (by decide)
    obtain ⟨w', hw1, hw2, hw3⟩ := h5 "num_stations" _ (by decide) (by decide) (this.trans g5)
    refine ⟨w', _, hw1, hw2, ?_, rfl, flatMap_sorted g3⟩
    rcases hw3 with hw3 | hw3 <;> rw [hw3]
    rfl
  · intro k v hk hv
    simp only [List.mem_cons, List.not_mem_nil, or_false, not_or] at hk
    obtain ⟨w, hw, hj⟩ := g6 k v hk.1 hv
    have : ds2.get? k = ds.get? k := by
      rcases fillPlaces_cases h4 with ⟨-, rfl⟩ | ⟨-, rt, x, y, -, -, -, hg⟩
      · exact hds1 _ hk.2.1 hk.2.2.1
      · rw [hg, if_neg hk.2.2.2.2.2, if_neg hk.2.2.2.2.1]
        exact hds1 _ hk.2.1 hk.2.2.1
    obtain ⟨w', hw1, hw2⟩ := h5 k w hk.2.2.2.1 hk.2.2.1 (this.trans hw)
    exact ⟨w, w', hw1, hw2, hj⟩
  · intro k v hk hx hv
    have hk' : k ≠ "num_stations" ∧ k ≠ "num_flts" ∧ k ≠ "num_test_times" ∧ k ≠ "num_times" := by
      rcases hk with rfl | rfl <;> decide
    obtain ⟨w, hw, hj⟩ := g6 k v hk'.1 hv
    rcases fillPlaces_cases h4 with ⟨-, rfl⟩ | ⟨hno, -⟩
    · obtain ⟨w', hw1, hw2⟩ := h5 k w hk'.2.2.2 hk'.2.2.1 ((hds1 _ hk'.2.1 hk'.2.2.1).trans hw)
      exact ⟨w, w', hw1, hw2, hj⟩
    · rw [← hX, hno] at hx
      cases hx
  · intro k hk hx
    have hk' : k ≠ "num_stations" ∧ k ≠ "num_flts" ∧ k ≠ "num_test_times" ∧ k ≠ "num_times" := by
      rcases hk with rfl | rfl <;> decide
    rcases fillPlaces_cases h4 with ⟨hs, -⟩ | ⟨-, rt', vx, vy, hr1, hr2, hr3, hg⟩
    · rw [hX, hx] at hs
      cases hs
    · rw [q1] at hr1
      cases hr1
      have hsome : ∃ u, y.get? k = some u ∧ ds2.get? k = some ⟨u.dims, none, u.data⟩ := by
        rcases hk with rfl | rfl
        · exact ⟨vx, hr2, by rw [hg]; rfl⟩
        · exact ⟨vy, hr3, by rw [hg]; rfl⟩
      obtain ⟨u, hu1, hu2⟩ := hsome
      obtain ⟨v, hv⟩ : ∃ v, (e first').get? k = some v := by
        have := (qs k).1 (by rw [hu1]; rfl)
        rcases this with h | h
        · exact absurd h hk'.1
        · exact Option.isSome_iff_exists.1 h
      obtain ⟨w, hw, hj⟩ := q6 k v hk'.1 hv
      rw [hu1] at hw
      cases hw
      obtain ⟨w', hw1, hw2⟩ := h5 k _ hk'.2.2.2 hk'.2.2.1 hu2
      exact ⟨v, u, w', hv, hw1, hw2, hj⟩

/-- Variables of times carry the units of the epoch, and `num_test_times` is used only beside `num_times`. -/
theorem C95_times {expand : List Char → List Char} {glob : List Char → List (List Char)}
    {read root : List Char → Except Err (Block K)} {pre : List Char → Block K → Except Err (Block K)} {p : PyPaths}
    {ds' : Block K} (h : openMany expand glob read root pre p = .ok ds') :
    (∀ k v, k ∈ ["test_times", "search_times", "Times", "num_test_times", "num_times"] → ds'.get? k = some v →
      v.units = some "seconds since 1970-01-01") ∧
    (ds'.hasDim "num_test_times" = true → ds'.hasDim "num_times" = true) := by
  unfold openMany at h
  simp only [bind, Except.bind] at h
  split at h
  · cases h
  split at h
  · cases h
  split at h
  · cases h
  split at h
  · cases h
  split at h
  · cases h
  rename_i ds2 _
  have hun : ∀ (l : List (String × DVar (NDArr (Fl K)))) (j : String) (u : DVar (NDArr (Fl K))), j ∈ timeVars →
      (unitLoop l).lookup j = some u → u.units = some epoch := by
    intro l j u hj hu
    rw [lookup_unitLoop] at hu
    simp only [hj, if_true, Option.map_eq_some_iff] at hu
    obtain ⟨t, -, rfl⟩ := hu
    rfl
  split_ifs at h with hc
  · refine ⟨fun k v hk hv => ?_, fun ht => ?_⟩
    · rw [get_rename h] at hv
      simp only [Option.map_eq_some_iff] at hv
      obtain ⟨u, hu, rfl⟩ := hv
      change u.units = _
      split_ifs at hu with h1 h2
      · exact hun _ "num_test_times" _ (by simp [timeVars]) hu
      · exact hun _ _ _ hk hu
    · exfalso
      unfold Dataset.rename at h
      split_ifs at h
      simp only [Except.ok.injEq] at h
      subst h
      rw [hasDim_iff] at ht
      obtain ⟨kv, h1, n, h3⟩ := ht
      obtain ⟨kv', -, rfl⟩ := List.mem_map.1 h1
      simp only [List.mem_map, Prod.mk.injEq] at h3
      obtain ⟨d, -, h4, -⟩ := h3
      unfold renDim at h4
      split_ifs at h4 with h5
      · exact absurd h4 (by decide)
      · exact h5 h4
  · simp only [Except.ok.injEq] at h
    subst h
    refine ⟨fun k v hk hv => hun _ _ _ hk hv, fun ht => ?_⟩
    cases hd : (⟨unitLoop ds2.vars, ds2.coords⟩ : Block K).hasDim "num_times" with
    | true => rfl
    | false => exact absurd ⟨hd, ht⟩ hc

theorem setRaw_get {ds ds' : Block K} {k : String} {a : VData (NDArr (Fl K))} (h : setRaw ds k a = .ok ds') :
    (∃ n, ds'.get? k = some ⟨[(k, n)], none, a⟩) ∧ ∀ k', k' ≠ k → ds'.get? k' = ds.get? k' := by
  unfold setRaw at h
  split at h
  · split at h
    · exact ⟨⟨_, by rw [get_setCoord h, if_pos rfl]⟩, fun k' hk => by rw [get_setCoord h, if_neg hk]⟩
    · cases h
  · exact ⟨⟨_, by rw [get_setCoord h, if_pos rfl]⟩, fun k' hk => by rw [get_setCoord h, if_neg hk]⟩
  · cases h

/-- Lead times that the group does not have as coordinate are those of the root group of the first file in the order of the
texts. -/
theorem C95_lead_times {expand : List Char → List Char} {glob : List Char → List (List Char)}
    {read root : List Char → Except Err (Block K)} {pre : List Char → Block K → Except Err (Block K)} {p : PyPaths}
    {ds ds' : Block K} (hds : openAll read pre (sortedPaths expand glob p) = .ok ds)
    (h : openMany expand glob read root pre p = .ok ds') (hd : ds.hasDim "num_flts" = true) (hc : "num_flts" ∉ ds.coords) :
    ∃ first rt u v, (sortedPaths expand glob p).head? = some first ∧ root first = .ok rt ∧ rt.get? "FLTs" = some u ∧
      ds'.get? "num_flts" = some v ∧ v.data = u.data ∧ ∃ n, v.dims = [("num_flts", n)] := by
  obtain ⟨first, x, rt, ds1, ds2, h0, h1, h2, h3, h4, h5⟩ := openMany_cases h
  rw [hds] at h1
  cases h1
  rw [fillCoords, if_pos ⟨hd, hc⟩] at h3
  split at h3
  · cases h3
  rename_i u hu
  split at h3
  · cases h3
  rename_i y hy
  obtain ⟨⟨n, g1⟩, -⟩ := setRaw_get hy
  have g2 : ds1.get? "num_flts" = some ⟨[("num_flts", n)], none, u.data⟩ := by
    rw [fillCoords_other h3 (by simp), g1]
  have g3 : ds2.get? "num_flts" = ds1.get? "num_flts" := by
    rcases fillPlaces_cases h4 with ⟨-, rfl⟩ | ⟨-, rt, x, y, -, -, -, hg⟩
    · rfl
    · rw [hg, if_neg (by decide), if_neg (by decide)]
  obtain ⟨w', k1, k2, k3⟩ := h5 "num_flts" _ (by decide) (by decide) (g3.trans g2)
  refine ⟨first, rt, u, w', h0, h2, hu, k1, k2, n, ?_⟩
  rcases k3 with k3 | k3 <;> rw [k3]
  rfl

/-- If that root group has no lead times the call fails with a `KeyError`. -/
theorem C95_no_lead_times {expand : List Char → List Char} {glob : List Char → List (List Char)}
    {read root : List Char → Except Err (Block K)} {pre : List Char → Block K → Except Err (Block K)} {p : PyPaths}
    {ds rt : Block K} {first : List Char} (hds : openAll read pre (sortedPaths expand glob p) = .ok ds)
    (hf : (sortedPaths expand glob p).head? = some first) (hr : root first = .ok rt) (hno : rt.get? "FLTs" = none)
    (hd : ds.hasDim "num_flts" = true) (hc : "num_flts" ∉ ds.coords) :
    openMany expand glob read root pre p = .error .key := by
  have hfill : fillCoords rt [("num_flts", "FLTs"), ("num_test_times", "test_times")] ds = .error .key := by
    rw [fillCoords, if_pos ⟨hd, hc⟩, hno]
  unfold openMany
  cases hs : sortedPaths expand glob p with
  | nil => rw [hs] at hf; cases hf
  | cons a l =>
    rw [hs] at hf hds
    simp only [List.head?_cons, Option.some.injEq] at hf
    subst hf
    simp only [bind, Except.bind, hds, hr, hfill]

/-- The order in which the files are named, or in which `glob` finds them, does not matter. -/
theorem C95_order (expand : List Char → List Char) (glob glob' : List Char → List (List Char))
    (read root : List Char → Except Err (Block K)) (pre : List Char → Block K → Except Err (Block K)) :
    (∀ l l' : List (List Char), l.Perm l' →
      openMany expand glob read root pre (.list l) = openMany expand glob' read root pre (.list l')) ∧
    (∀ s, (glob (expand s)).Perm (glob' (expand s)) →
      openMany expand glob read root pre (.text s) = openMany expand glob' read root pre (.text s)) ∧
    (∀ s l, (glob (expand s)).Perm (l.map expand) →
      openMany expand glob read root pre (.text s) = openMany expand glob' read root pre (.list l)) := by
  have key : ∀ p p' : PyPaths, sortedPaths expand glob p = sortedPaths expand glob' p' →
      openMany expand glob read root pre p = openMany expand glob' read root pre p' := by
    intro p p' h
    unfold openMany
    rw [h]
  have sort : ∀ l l' : List (List Char), l.Perm l' → l.insertionSort (· ≤ ·) = l'.insertionSort (· ≤ ·) := by
    intro l l' h
    have hp := ((List.perm_insertionSort (· ≤ ·) l).trans h).trans (List.perm_insertionSort (· ≤ ·) l').symm
    refine hp.eq_of_pairwise ?_ (List.pairwise_insertionSort _ _) (List.pairwise_insertionSort _ _)
    intro a b _ _ h1 h2
    exact List.le_antisymm h1 h2
  refine ⟨fun l l' h => key _ _ (sort _ _ (h.map _)), fun s h => key _ _ (sort _ _ h), fun s l h => key _ _ (sort _ _ h)⟩

/-- two files of a run: three stations in file 10, two in file 2; locations and lead times are in the root group -/
def runGroup : List Char → Except Err (Block ℚ) := fun p =>
  if p = "a/Rank10.nc".toList then
    .ok ⟨[("analogs", ⟨[("num_flts", 1), ("num_stations", 3)], none, .other ⟨[1, 3], [some 7, some 8, some 9], rfl⟩⟩)], []⟩
  else if p = "a/Rank2.nc".toList then
    .ok ⟨[("analogs", ⟨[("num_flts", 1), ("num_stations", 2)], none, .other ⟨[1, 2], [some 4, none], rfl⟩⟩)], []⟩
  else .error .generic

def runRoot : List Char → Except Err (Block ℚ) := fun p =>
  if p = "a/Rank10.nc".toList then
    .ok ⟨[("Xs", ⟨[("num_stations", 3)], none, .other ⟨[3], [some 10, some 11, some 12], rfl⟩⟩),
      ("Ys", ⟨[("num_stations", 3)], none, .other ⟨[3], [some 20, some 21, some 22], rfl⟩⟩),
      ("FLTs", ⟨[("num_flts", 1)], none, .other ⟨[1], [some 3600], rfl⟩⟩)], []⟩
  else if p = "a/Rank2.nc".toList then
    .ok ⟨[("Xs", ⟨[("num_stations", 2)], none, .other ⟨[2], [some 1, some 2], rfl⟩⟩),
      ("Ys", ⟨[("num_stations", 2)], none, .other ⟨[2], [some 5, some 6], rfl⟩⟩),
      ("FLTs", ⟨[("num_flts", 1)], none, .other ⟨[1], [some 3600], rfl⟩⟩)], []⟩
  else .error .generic

/-- in the order of the texts file 10 comes first, in the result file 2 -/
example : ((openMany id (fun _ => ["a/Rank2.nc".toList, "a/Rank10.nc".toList]) runGroup runRoot addStations
    (.text "a/*.nc".toList)).toOption.map fun ds => ["analogs", "Xs", "num_flts", "num_stations"].map ds.get?) =
    some [some ⟨[("num_flts", 1), ("num_stations", 5)], none, .other ⟨[1, 5], [some 4, none, some 7, some 8, some 9], rfl⟩⟩,
      some ⟨[("num_stations", 5)], none, .other ⟨[5], [some 1, some 2, some 10, some 11, some 12], rfl⟩⟩,
      some ⟨[("num_flts", 1)], none, .other ⟨[1], [some 3600], rfl⟩⟩,
      some ⟨[("num_stations", 5)], none, .other ⟨[5], [some 2, some (5/2), some 10, some (31/3), some (32/3)], rfl⟩⟩] := by
  decide +kernel

/-- those two files are the files of a run -/
def runData (p : List Char) : Block ℚ := (runGroup p).toOption.getD ⟨[], []⟩

def runSize (p : List Char) : Nat := if p = "a/Rank10.nc".toList then 3 else 2

def runRank (p : List Char) : Int := if p = "a/Rank10.nc".toList then 10 else 2

theorem runGroup_file (n : Nat) (hn : 0 < n) (x : NDArr (Fl ℚ)) (hx : x.shape = [1, n]) :
    RunFile n (⟨[("analogs", ⟨[("num_flts", 1), ("num_stations", n)], none, .other x⟩)], []⟩ : Block ℚ) :=
  ⟨by simp, hn, ⟨_, List.mem_singleton_self _, by simp [PerStation]⟩, by
    simp only [List.mem_singleton]
    rintro kv rfl y hy h
    simp only [List.mem_cons, List.not_mem_nil, or_false] at hy
    rcases hy with rfl | rfl
    · exact absurd h (by decide)
    · rfl, by simp, by simp [hx], by simp⟩

theorem runGroup_alike (m n : Nat) (x y : NDArr (Fl ℚ)) :
    SameLayout (⟨[("analogs", ⟨[("num_flts", 1), ("num_stations", n)], none, .other x⟩)], []⟩ : Block ℚ)
      ⟨[("analogs", ⟨[("num_flts", 1), ("num_stations", m)], none, .other y⟩)], []⟩ := by
  intro k v hv _
  simp only [Dataset.get?, List.lookup_cons, List.lookup_nil] at hv ⊢
  split at hv
  · simp only [Option.some.injEq] at hv
    subst hv
    exact ⟨_, rfl, by simp [layout], by simp⟩
  · cases hv

example : Run runGroup ["a/Rank10.nc".toList, "a/Rank2.nc".toList] runData runRank runSize where
  opened := by decide +kernel
  ranks := by
    intro p hp
    simp only [List.mem_cons, List.not_mem_nil, or_false] at hp
    rcases hp with rfl | rfl <;> decide +kernel
  files := by
    intro p hp
    simp only [List.mem_cons, List.not_mem_nil, or_false] at hp
    rcases hp with rfl | rfl
    · exact runGroup_file 3 (by decide) _ rfl
    · exact runGroup_file 2 (by decide) _ rfl
  alike := by
    intro p hp q hq
    simp only [List.mem_cons, List.not_mem_nil, or_false] at hp hq
    rcases hp with rfl | rfl <;> rcases hq with rfl | rfl <;> exact runGroup_alike _ _ _ _
  distinct := by decide +kernel

/-- What a success needs: at least one file, every file opened, every name with a rank number and every file with
stations. -/
theorem C95_needs {expand : List Char → List Char} {glob : List Char → List (List Char)}
    {read root : List Char → Except Err (Block K)} {p : PyPaths} {ds' : Block K}
    (h : openMany expand glob read root addStations p = .ok ds') :
    sortedPaths expand glob p ≠ [] ∧
      ∀ q ∈ sortedPaths expand glob p, ∃ d r n, read q = .ok d ∧ rankNumber q = .ok r ∧ d.size? "num_stations" = some n := by
  obtain ⟨f0, ds, rt, ds1, ds2, h0, h1, -⟩ := openMany_cases h
  refine ⟨fun h => (by rw [h] at h0; simp at h0), fun q hq => ?_⟩
  unfold openAll at h1
  cases hm : mapE (fun p => do let d ← read p; addStations p d) (sortedPaths expand glob p) with
  | error e => rw [hm] at h1; cases h1
  | ok dss =>
    obtain ⟨d', hd'⟩ : ∃ d', (do let d ← read q; addStations q d) = .ok d' := by
      rw [mapE_ok] at hm
      obtain ⟨i, hi, rfl⟩ := List.mem_iff_getElem.1 hq
      have := hm.length_eq
      exact ⟨dss[i]'(by omega), (List.forall₂_iff_get.1 hm).2 i hi (by omega)⟩
    cases hr : read q with
    | error e => rw [hr] at hd'; cases hd'
    | ok d =>
      rw [hr] at hd'
      simp only [bind, Except.bind] at hd'
      unfold addStations addCoords at hd'
      cases hk : rankNumber q with
      | error e => rw [hk] at hd'; cases hd'
      | ok r =>
        rw [hk] at hd'
        simp only at hd'
        split at hd'
        · cases hd'
        · rename_i n hn
          exact ⟨d, r, n, rfl, rfl, hn⟩

/-- no file: the `OSError` of xarray -/
theorem C95_no_file (expand : List Char → List Char) (glob : List Char → List (List Char))
    (read root : List Char → Except Err (Block K)) (pre : List Char → Block K → Except Err (Block K)) :
    openMany expand glob read root pre (.list []) = .error .generic ∧
    ∀ s, glob (expand s) = [] → openMany expand glob read root pre (.text s) = .error .generic := by
  refine ⟨rfl, fun s h => ?_⟩
  have : sortedPaths expand glob (.text s) = [] := by
    simp only [sortedPaths, h, List.insertionSort_nil]
  unfold openMany
  rw [this]
  rfl

/-! ### C96 -/

theorem lengthAlong_of {d : List Char → Block K} {n : List Char → Nat} {k : String} {ax : Nat} :
    ∀ {l : List (List Char)} {bb : List (NDArr (Fl K))},
      bb.map (fun b => some (VData.other b)) = l.map ((fun x : Block K => (x.get? k).map DVar.data) ∘ d) →
      (∀ q ∈ l, ∀ u b, (d q).get? k = some u → u.data = .other b → b.shape.getD ax 0 = n q) →
      lengthAlong ax bb = (l.map n).sum
  | [], [], _, _ => rfl
  | [], _ :: _, h, _ => by simp at h
  | _ :: _, [], h, _ => by simp at h
  | q :: l, b :: bb, h, hw => by
    simp only [List.map_cons, List.cons.injEq, Function.comp_apply] at h
    have ih := lengthAlong_of (d := d) (n := n) (ax := ax) h.2 fun q hq => hw q (by simp [hq])
    obtain ⟨u, hu, hub⟩ := Option.map_eq_some_iff.1 h.1.symm
    have := hw q (by simp) u b hu hub
    unfold lengthAlong at ih ⊢
    simp only [List.map_cons, List.sum_cons, ih, this]

/-- No station is lost: the stations of every file of a run are found in the result, together, each with its coordinate
and with its values in every array with stations. -/
theorem C96_kept_partial {read : List Char → Except Err (Block K)} {paths : List (List Char)} {d : List Char → Block K}
    {r : List Char → Int} {n : List Char → Nat} (h : Run read paths d r n) (hne : paths ≠ []) :
    ∃ (ds : Block K) (c : List K), openAll read addStations paths = .ok ds ∧
      ds.get? "num_stations" =
        some ⟨[("num_stations", (paths.map n).sum)], none, .other ⟨[c.length], c.map some, by simp⟩⟩ ∧
      c.length = (paths.map n).sum ∧
      ∀ p ∈ paths, ∃ offset, (∀ i < n p, c[offset + i]? = some ((r p : K) + (i : K) / (n p : K))) ∧
        ∀ k v a, k ≠ "num_stations" → (d p).get? k = some v → PerStation v → v.data = .other a →
          ∃ w a', ds.get? k = some w ∧ w.data = .other a' ∧ ∀ i, InB a.shape i →
            a'.get (i.set (stationDim v) (offset + i.getD (stationDim v) 0)) = a.get i := by
  obtain ⟨ds, first, rest, h1, h2, h3, -, ⟨c, h4, h5, -⟩, h6⟩ := C95_stations h hne
  have hsum : (paths.map n).sum = ((first :: rest).map n).sum := (h2.map n).symm.sum_eq
  refine ⟨ds, c, h1, by rw [hsum]; exact h4, ?_, ?_⟩
  · rw [h5, hsum, List.length_flatMap]
    simp
  intro p hp
  obtain ⟨before, after, hba⟩ := List.append_of_mem (h2.mem_iff.2 hp)
  refine ⟨(before.map n).sum, ?_, ?_⟩
  · intro i hi
    rw [h5, hba, List.flatMap_append, List.flatMap_cons, List.getElem?_append_right (by
      rw [List.length_flatMap]; simp), List.getElem?_append_left (by
      rw [List.length_flatMap]; simpa using hi)]
    rw [List.length_flatMap]
    simp [hi]
  · intro k v a hk hv hps ha
    have hfm : first ∈ paths := h2.mem_iff.1 (by simp)
    obtain ⟨v0, hv0, hl0, hkind⟩ := h.alike p hp first hfm k v hv hps
    obtain ⟨a0, ha0⟩ := hkind.1 ⟨a, ha⟩
    obtain ⟨w, hw, hj⟩ := h6 k v0 hk hv0
    obtain ⟨-, -, -, hnum, -⟩ := hj.2 ((perStation_layout hl0).2 hps)
    obtain ⟨a', blocks, hw', hb, hside⟩ := hnum a0 ha0
    refine ⟨w, a', hw, hw', fun i hi => ?_⟩
    have hdim : stationDim v0 = stationDim v := by
      rw [← stationAxis_idxOf, ← stationAxis_idxOf, stationAxis_layout hl0]
    rw [hdim] at hside
    rw [hba, List.map_append, List.map_cons, List.map_append, List.map_cons, hv] at hb
    simp only [Option.map_some, ha] at hb
    obtain ⟨bb, rb, rfl, hb1, hb2⟩ := List.append_eq_map_iff.1 hb
    obtain ⟨b0, ab, rfl, hb3, -⟩ := List.map_eq_cons_iff.1 hb2
    simp only [Option.some.injEq, VData.other.injEq] at hb3
    subst hb3
    have := hside.2 bb b0 ab rfl i hi
    have hlen : lengthAlong (stationDim v) bb = (before.map n).sum := by
      refine lengthAlong_of (hb1.trans (List.map_map ..)) fun q hq u b hu hub => ?_
      have hqm : q ∈ paths := h2.mem_iff.1 (by rw [hba]; simp [hq])
      obtain ⟨u', hu', hl', -⟩ := h.alike p hp q hqm k v hv hps
      rw [hu] at hu'
      cases hu'
      have := (RunFile_width (h.files q hqm) hu ((perStation_layout hl').2 hps) hub).2
      rwa [stationAxis_layout hl', stationAxis_idxOf] at this
    rw [hlen] at this
    exact this

/-- three files, two of them with the same name in different directories -/
def threeFiles : List Char → Except Err (Block ℚ) := fun p =>
  if p = "a/Rank1.nc".toList then
    .ok ⟨[("Xs", ⟨[("num_stations", 2)], none, .other ⟨[2], [some 10, some 11], rfl⟩⟩)], []⟩
  else if p = "b/Rank1.nc".toList then
    .ok ⟨[("Xs", ⟨[("num_stations", 1)], none, .other ⟨[1], [some 20], rfl⟩⟩)], []⟩
  else .ok ⟨[("Xs", ⟨[("num_stations", 1)], none, .other ⟨[1], [some 30], rfl⟩⟩)], []⟩

/-- In general stations are lost: only the name of the file counts, not its directory, and of two files with the same rank
number the later silently replaces the earlier.  Here four stations are in the files and two in the result, without any
error; the two of `a/Rank1.nc` are gone. -/
theorem C96_false : ((openMany id (fun _ => []) threeFiles threeFiles addStations
    (.list ["a/Rank1.nc".toList, "b/Rank1.nc".toList, "b/Rank2.nc".toList])).toOption.map fun ds =>
      ["Xs", "num_stations"].map ds.get?) =
    some [some ⟨[("num_stations", 2)], none, .other ⟨[2], [some 20, some 30], rfl⟩⟩,
      some ⟨[("num_stations", 2)], none, .other ⟨[2], [some 1, some 2], rfl⟩⟩] := by decide +kernel

/-- Numbers in a name are run together (C60), so that different names can have the same rank number. -/
theorem C96_false_names : ((openMany id (fun _ => []) (fun p => if p = "Rank1_Rank2.nc".toList then
      threeFiles "a/Rank1.nc".toList else threeFiles "b/Rank1.nc".toList) threeFiles addStations
    (.list ["Rank12.nc".toList, "Rank1_Rank2.nc".toList])).toOption.map fun ds => ds.get? "Xs") =
    some (some ⟨[("num_stations", 2)], none, .other ⟨[2], [some 10, some 11], rfl⟩⟩) := by decide +kernel

/-- Two files with the same rank number and equally many stations cannot be put in order. -/
theorem C96_same (read root : List Char → Except Err (Block K)) (expand : List Char → List Char)
    (glob : List Char → List (List Char)) {p q : List Char} {d e : Block K} {r : Int} {n : Nat}
    (hpq : sortedPaths expand glob (.list [p, q]) = [p, q]) (hp : read p = .ok d) (hq : read q = .ok e)
    (hrp : rankNumber p = .ok r) (hrq : rankNumber q = .ok r) (hd : RunFile n d) (he : RunFile n e) :
    openMany expand glob read root addStations (.list [p, q]) = .error .value := by
  have h1 : mapE (fun p => do let x ← read p; addStations p x) [p, q] =
      .ok [withStations r n d, withStations r n e] := by
    have e1 : (do let x ← read p; addStations p x) = .ok (withStations r n d) := by
      rw [hp]; exact addStations_ok hrp hd
    have e2 : (do let x ← read q; addStations q x) = .ok (withStations r n e) := by
      rw [hq]; exact addStations_ok hrq he
    rw [mapE_ok]
    exact .cons e1 (.cons e2 .nil)
  have f1 := firstStation_spec hd.pos (d := withStations r n d) (r := r) (by rw [withStations_get, if_pos rfl])
  have f2 := firstStation_spec he.pos (d := withStations r n e) (r := r) (by rw [withStations_get, if_pos rfl])
  have h2 : mapE firstStation [withStations r n d, withStations r n e] =
      .ok [((r : K), withStations r n d), ((r : K), withStations r n e)] := by
    rw [mapE_ok]
    exact .cons f1.1 (.cons f2.1 .nil)
  have h3 : openAll read addStations [p, q] = .error .value := by
    unfold openAll
    rw [h1]
    simp only [bind, Except.bind, combineStations, h2, f1.2, f2.2, List.all_cons, List.all_nil, decide_true,
      Bool.and_self, if_true]
  unfold openMany
  rw [hpq]
  simp only [h3, bind, Except.bind]

example : (openMany id (fun _ => []) threeFiles threeFiles addStations
    (.list ["b/Rank1.nc".toList, "c/Rank1.nc".toList])).toOption = none := by decide +kernel

/-! ### C97 -/

/-- Opening one file with `open_mfdataset` and with `open_dataset`: variables without characters hold the same values along
the same dimensions, up to the name of the dimension of times. -/
theorem C97_values_partial {read root : List Char → Except Err (Block K)} {p : List Char} {d : Block K}
    (hp : read p = .ok d) (hn : ¬ Undecodable d) {one many : Block K} (h1 : postOpen d = .ok one)
    (h2 : openMany id (fun _ => []) read root addStations (.list [p]) = .ok many) {k : String} {v : DVar (NDArr (Fl K))}
    (hk : k ∉ ["num_flts", "num_parameters", "num_test_times", "num_search_times", "num_times", "num_stations", "Xs", "Ys"])
    (hv : d.get? k = some v) (hc : hasChars v = false) :
    ∃ v1 v2, one.get? k = some v1 ∧ many.get? k = some v2 ∧ v1.data = v.data ∧ v2.data = v.data ∧
      Kept v v1 ∧ Kept v v2 := by
  obtain ⟨v1, a1, a2, a3, -⟩ := C69_data hn h1 (by simp at hk ⊢; tauto) hv
  simp only [List.mem_cons, List.not_mem_nil, or_false, not_or] at hk
  obtain ⟨f0, ds, rt, ds1, ds2, g0, g1, -, g3, g4, g5⟩ := openMany_cases h2
  have hs : sortedPaths id (fun _ => []) (.list [p]) = [p] := rfl
  rw [hs] at g1
  obtain ⟨u, hu⟩ : ∃ u, addStations p d = .ok u ∧ ds = u := by
    unfold openAll at g1
    cases ha : addStations p d with
    | error e =>
      exfalso
      have : mapE (fun p => do let x ← read p; addStations p x) [p] = .error e := by
        simp only [mapE, hp, ha, bind, Except.bind]
      rw [this] at g1
      cases g1
    | ok u =>
      have : mapE (fun p => do let x ← read p; addStations p x) [p] = .ok [u] := by
        simp only [mapE, hp, ha, bind, Except.bind]
      rw [this] at g1
      simp only [bind, Except.bind, combineStations, Except.ok.injEq] at g1
      exact ⟨u, rfl, g1.symm⟩
  obtain ⟨hu1, rfl⟩ := hu
  have hds : ds.get? k = some v := by
    unfold addStations addCoords at hu1
    split at hu1
    · cases hu1
    · split at hu1
      · cases hu1
      · rw [get_setCoord hu1, if_neg (by tauto), hv]
  have hds1 : ds1.get? k = some v := by
    rw [fillCoords_other g3 (by simp; tauto), hds]
  have hds2 : ds2.get? k = some v := by
    rcases fillPlaces_cases g4 with ⟨-, rfl⟩ | ⟨-, rt, x, y, -, -, -, hg⟩
    · exact hds1
    · rw [hg, if_neg (by tauto), if_neg (by tauto), hds1]
  obtain ⟨v2, b1, b2⟩ := g5 k v (by tauto) (by tauto) hds2
  have hfil : (v.dims.filter fun x => x.1 ≠ "num_chars") = v.dims := by
    rw [List.filter_eq_self]
    intro x hx
    unfold hasChars at hc
    rw [List.any_eq_false] at hc
    simpa using hc x hx
  have hk1 : Kept v v1 := by
    refine ⟨a3 hc, ?_⟩
    unfold NewDims at a2
    rwa [hfil] at a2
  exact ⟨v1, v2, a1, b1, a3 hc, b2.1, hk1, b2⟩

/-- a file of observations with one parameter, one time and one station -/
def oneFile : Block ℚ :=
  ⟨[("ParameterNames", ⟨[("num_parameters", 1), ("num_chars", 2)], none, .chars [[['T'], ['2']]]⟩),
    ("Times", ⟨[("num_times", 1)], none, .other ⟨[1], [some 60], rfl⟩⟩),
    ("Xs", ⟨[("num_stations", 1)], none, .other ⟨[1], [some 5], rfl⟩⟩),
    ("Data", ⟨[("num_parameters", 1), ("num_stations", 1), ("num_times", 1)], none, .other ⟨[1, 1, 1], [some 7], rfl⟩⟩)], []⟩

example : ¬ Undecodable oneFile := by
  rintro ⟨kv, h, h1, h2⟩
  simp only [oneFile, List.mem_cons, List.not_mem_nil, or_false] at h
  rcases h with rfl | rfl | rfl | rfl
  · exact h2 (by decide)
  all_goals exact absurd h1 (by decide)

/-- The two functions do not agree in general: `open_mfdataset` neither decodes the names of the parameters nor makes them
or the times coordinates, so that selecting a parameter by name works for one and not for the other. -/
theorem C97_false :
    ((postOpen oneFile).toOption.map fun ds => ["ParameterNames", "num_parameters", "num_times", "Data"].map ds.get?) =
      some [some ⟨[("num_parameters", 1)], none, .names [['T', '2']]⟩,
        some ⟨[("num_parameters", 1)], none, .names [['T', '2']]⟩,
        some ⟨[("num_times", 1)], some epoch, .other ⟨[1], [some 60], rfl⟩⟩,
        some ⟨[("num_parameters", 1), ("num_stations", 1), ("num_times", 1)], none, .other ⟨[1, 1, 1], [some 7], rfl⟩⟩] ∧
    ((openMany id (fun _ => []) (fun _ => .ok oneFile) (fun _ => .ok oneFile) addStations
        (.list ["Rank0.nc".toList])).toOption.map fun ds =>
          ["ParameterNames", "num_parameters", "num_times", "Data"].map ds.get?) =
      some [some ⟨[("num_parameters", 1), ("num_chars", 2)], none, .chars [[['T'], ['2']]]⟩, none, none,
        some ⟨[("num_parameters", 1), ("num_stations", 1), ("num_times", 1)], none, .other ⟨[1, 1, 1], [some 7], rfl⟩⟩] := by
  refine ⟨?_, ?_⟩ <;> decide +kernel

end Props
