import Verif.Lemmas.IO
import Mathlib.Data.Rat.Defs
import Mathlib.Algebra.Order.Ring.Rat

/-!
# C60, C67, C68, C69: opening files
-/

set_option linter.unusedSectionVars false

namespace Props
open Np Model Lemmas

variable {D : Type}

/-! ### C60 -/

section coords
variable {K : Type} [Field K] [LinearOrder K] [IsStrictOrderedRing K]

/-- The coordinates of one file: one per station, strictly increasing, in `[r, r + 1)`. -/
theorem C60_range (r : Int) (n : Nat) : (stationCoords r n : List K).length = n ∧
    (stationCoords r n : List K).Pairwise (· < ·) ∧ ∀ x ∈ (stationCoords r n : List K), (r : K) ≤ x ∧ x < (r : K) + 1 :=
  ⟨by simp [stationCoords], pairwise_stationCoords r n, fun _ h => mem_stationCoords h⟩

/-- Files with different rank numbers share no coordinate, and their stations sort by rank number. -/
theorem C60_sorted {r r' : Int} (h : r < r') (n n' : Nat) {x y : K} (hx : x ∈ (stationCoords r n : List K))
    (hy : y ∈ (stationCoords r' n' : List K)) : x < y := by
  have h1 := (mem_stationCoords hx).2
  have h2 := (mem_stationCoords hy).1
  have h3 : (r : K) + 1 ≤ (r' : K) := by exact_mod_cast h
  linarith

theorem C60_disjoint {r r' : Int} (h : r ≠ r') (n n' : Nat) {x : K} (hx : x ∈ (stationCoords r n : List K)) :
    x ∉ (stationCoords r' n' : List K) := by
  intro hy
  rcases lt_or_gt_of_ne h with h | h
  · exact lt_irrefl _ (C60_sorted h n n' hx hy)
  · exact lt_irrefl _ (C60_sorted h n' n hy hx)

/-- The number in the file name: a name with one `Rank<digits>` gets that number. -/
theorem C60_number (dir pre post : List Char) (n : Nat) (h1 : 'R' ∉ pre) (h2 : 'R' ∉ post)
    (h3 : ∀ c, post.head? = some c → c.isDigit = false) (h4 : '/' ∉ pre) (h5 : '/' ∉ post) :
    rankNumber (dir ++ '/' :: (pre ++ ("Rank".toList ++ natStr n ++ post))) = .ok (n : Int) := by
  have hdig : ∀ c ∈ natStr n, c.isDigit = true ∧ c ≠ '/' := by
    intro c hc
    unfold natStr at hc
    split at hc
    · rw [List.mem_singleton] at hc; subst hc; decide
    · obtain ⟨d, hd, rfl⟩ := List.mem_map.1 hc
      have : d < 10 := Nat.digits_lt_base (by norm_num) (List.mem_reverse.1 hd)
      interval_cases d <;> decide
  have hbase : basename (dir ++ '/' :: (pre ++ ("Rank".toList ++ natStr n ++ post))) =
      pre ++ ("Rank".toList ++ natStr n ++ post) := by
    unfold basename
    set name := pre ++ ("Rank".toList ++ natStr n ++ post) with hname
    have hns : ∀ c ∈ name, c ≠ '/' := by
      intro c hc
      rw [hname] at hc
      simp only [List.mem_append] at hc
      rcases hc with hc | (hc | hc) | hc
      · rintro rfl; exact h4 hc
      · rintro rfl; exact absurd hc (by decide)
      · exact (hdig c hc).2
      · rintro rfl; exact h5 hc
    rw [List.reverse_append, List.reverse_cons, List.append_assoc, List.takeWhile_append_of_pos]
    · rw [List.singleton_append, List.takeWhile_cons_of_neg (by simp)]
      simp
    · intro c hc
      simpa using hns c (List.mem_reverse.1 hc)
  unfold rankNumber
  rw [hbase]
  simp only [ranksFrom_pre h1, ranksFrom_one (natStr_ne_nil n) (fun c hc => (hdig c hc).1) h3, ranksFrom_noR h2]
  rw [if_neg (by simp)]
  have := pyInt_intStr (n : Int)
  unfold intStr at this
  rw [if_neg (by omega)] at this
  simpa using this

/-- A name without a rank number is rejected. -/
theorem C60_no_number (emb : List K → D) (source : List Char) (dim : String) (ds : Dataset D)
    (h : 'R' ∉ basename source) : addCoords emb source dim ds = .error .assertion := by
  unfold addCoords rankNumber
  simp [ranksFrom_noR h]

/-- The coordinates are attached to the dataset, one per station, and nothing else is changed. -/
theorem C60_attached (emb : List K → D) (source : List Char) {ds ds' : Dataset D}
    (h : addCoords emb source "num_stations" ds = .ok ds') :
    ∃ r n, rankNumber source = .ok r ∧ ds.size? "num_stations" = some n ∧
      (∃ v, ds'.get? "num_stations" = some v ∧ v.data = .other (emb (stationCoords r n)) ∧
        v.dims = [("num_stations", n)]) ∧
      ∀ k, k ≠ "num_stations" → ds'.get? k = ds.get? k := by
  unfold addCoords at h
  cases hr : rankNumber source with
  | error e => rw [hr] at h; cases h
  | ok r =>
    rw [hr] at h
    cases hn : ds.size? "num_stations" with
    | none => simp only [hn] at h; cases h
    | some n =>
      simp only [hn] at h
      refine ⟨r, n, rfl, rfl, ⟨_, by rw [get_setCoord h, if_pos rfl], rfl, rfl⟩, fun k hk => ?_⟩
      rw [get_setCoord h, if_neg hk]

/-- With the station dimension present and a rank number in the name the call succeeds. -/
theorem C60_succeeds (emb : List K → D) (source : List Char) (ds : Dataset D) {r : Int} {n : Nat}
    (hr : rankNumber source = .ok r) (hn : ds.size? "num_stations" = some n) :
    ∃ ds', addCoords emb source "num_stations" ds = .ok ds' := by
  unfold addCoords
  rw [hr]
  simp only [hn]
  unfold Dataset.setCoord
  simp only
  rw [if_pos ⟨trivial, Or.inr hn⟩]
  exact ⟨_, rfl⟩

end coords

/-- Names with several numbers do collide: `Rank1_Rank2.nc` and `Rank12.nc` get the same number, hence the same
coordinates. -/
theorem C60_false_joined : rankNumber "Rank1_Rank2.nc".toList = .ok 12 ∧ rankNumber "Rank12.nc".toList = .ok 12 := by
  decide +kernel

example : rankNumber "/data/AnEn_Rank07.nc".toList = .ok 7 := by decide +kernel

example : (stationCoords 3 4 : List ℚ) = [3, 13 / 4, 7 / 2, 15 / 4] := by decide +kernel

/-! ### C67 -/

/-- a dataset whose stations are called `points` -/
def points : Dataset (List ℚ) := ⟨[("Xs", ⟨[("points", 2)], none, .other [5, 6]⟩)], []⟩

/-- The claim is false: with `dim_name='points'` the coordinates go to a new dimension `num_stations`, and `points` has
none. -/
theorem C67_false : ∃ ds', addCoords id "Rank1".toList "points" points = .ok ds' ∧
    points.size? "points" = some 2 ∧ ds'.get? "points" = none ∧
    ds'.get? "num_stations" = some ⟨[("num_stations", 2)], none, .other [1, 3 / 2]⟩ :=
  ⟨⟨[("Xs", ⟨[("points", 2)], none, .other [5, 6]⟩),
    ("num_stations", ⟨[("num_stations", 2)], none, .other [1, 3 / 2]⟩)], ["num_stations"]⟩,
    by decide +kernel, by decide +kernel, by decide +kernel, by decide +kernel⟩

/-- A dimension the dataset does not have is rejected by an assertion. -/
theorem C67_missing {K : Type} [Field K] (emb : List K → D) (source : List Char) (dim : String) (ds : Dataset D)
    {r : Int} (hr : rankNumber source = .ok r) (hd : ds.size? dim = none) :
    addCoords emb source dim ds = .error .assertion := by
  unfold addCoords
  rw [hr]
  simp only [hd]

example : rankNumber "Rank1".toList = .ok 1 ∧ points.size? "num_stations" = none := by decide +kernel

/-- In general a successful call never gives the named dimension a coordinate unless it is `num_stations`. -/
theorem C67_ignored {K : Type} [Field K] (emb : List K → D) (source : List Char) (dim : String) (hd : dim ≠ "num_stations")
    {ds ds' : Dataset D} (h : addCoords emb source dim ds = .ok ds') : ds'.get? dim = ds.get? dim := by
  unfold addCoords at h
  split at h
  · cases h
  · split at h
    · cases h
    · rw [get_setCoord h, if_neg hd]

/-- What holds: with the default name the coordinate is on that dimension (see also `C60_attached`). -/
theorem C67_default_partial {K : Type} [Field K] [LinearOrder K] [IsStrictOrderedRing K] (emb : List K → D)
    (source : List Char) {ds ds' : Dataset D} (h : addCoords emb source "num_stations" ds = .ok ds') :
    ∃ v n, ds'.get? "num_stations" = some v ∧ v.dims = [("num_stations", n)] ∧ ds.size? "num_stations" = some n := by
  obtain ⟨r, n, -, h2, ⟨v, h3, -, h4⟩, -⟩ := C60_attached emb source h
  exact ⟨v, n, h3, h4, h2⟩

/-! ### C68 -/

/-- some variable of characters is not a plain list of names -/
def Undecodable (ds : Dataset D) : Prop :=
  ∃ kv ∈ ds.vars, hasChars kv.2 = true ∧ kv.2.dims.length ≠ 2

theorem postOpen_cases {ds ds' : Dataset D} (hn : ¬ Undecodable ds) (h : postOpen ds = .ok ds') :
    ∃ d1, coordLoop coordsDict ⟨ds.vars.map fun kv => (kv.1, decodeVar kv.2), ds.coords⟩ = .ok d1 ∧
      (ds' = ⟨unitLoop d1.vars, d1.coords⟩ ∧ (ds'.hasDim "num_test_times" = true → ds'.hasDim "num_times" = true) ∨
       (⟨unitLoop d1.vars, d1.coords⟩ : Dataset D).rename "num_test_times" "num_times" = .ok ds') := by
  unfold postOpen at h
  have hflag : (if ds.hasDim "num_chars" = true then decodeVars ds.vars else (ds.vars, false)) =
      (ds.vars.map fun kv => (kv.1, decodeVar kv.2), false) := by
    split
    · have hf : (decodeVars ds.vars).2 = false := by
        rw [Bool.eq_false_iff]
        exact fun hf => hn ((decodeVars_flag _).1 hf)
      exact Prod.ext (decodeVars_eq hf) hf
    · rename_i hd
      refine Prod.ext ?_ rfl
      simp only
      have : ∀ kv ∈ ds.vars, (fun kv : String × DVar D => (kv.1, decodeVar kv.2)) kv = kv := by
        intro kv hkv
        have hc : hasChars kv.2 = false := by
          rw [Bool.eq_false_iff]
          intro hc
          apply hd
          rw [hasDim_iff]
          unfold hasChars at hc
          rw [List.any_eq_true] at hc
          obtain ⟨⟨a, n⟩, h1, h2⟩ := hc
          simp only [decide_eq_true_eq] at h2
          subst h2
          exact ⟨kv, hkv, n, h1⟩
        simp [decodeVar, hc]
      rw [List.map_congr_left this, List.map_id']
  rw [hflag] at h
  simp only [Bool.false_eq_true, if_false] at h
  split at h
  · cases h
  · rename_i d1 h1
    refine ⟨d1, h1, ?_⟩
    split_ifs at h with hc
    · exact Or.inr h
    · simp only [Except.ok.injEq] at h
      subst h
      refine Or.inl ⟨rfl, fun ht => ?_⟩
      cases hd : (⟨unitLoop d1.vars, d1.coords⟩ : Dataset D).hasDim "num_times" with
      | true => rfl
      | false => exact absurd ⟨hd, ht⟩ hc

/-- What holds: the variables named in IO.py:84 carry the epoch units, unless an undecodable variable makes the
function return early. -/
theorem C68_units_partial {ds ds' : Dataset D} (hn : ¬ Undecodable ds) (h : postOpen ds = .ok ds') {k : String}
    (hk : k = "test_times" ∨ k = "search_times" ∨ k = "Times" ∨ k = "num_test_times" ∨ k = "num_times") {v : DVar D}
    (hv : ds'.get? k = some v) : v.units = some "seconds since 1970-01-01" := by
  have hkt : k ∈ timeVars := by
    simp only [timeVars, List.mem_cons, List.not_mem_nil, or_false]
    exact hk
  have hun : ∀ (l : List (String × DVar D)) (j : String) (u : DVar D), j ∈ timeVars → (unitLoop l).lookup j = some u →
      u.units = some epoch := by
    intro l j u hj hu
    rw [lookup_unitLoop] at hu
    simp only [hj, if_true, Option.map_eq_some_iff] at hu
    obtain ⟨t, -, rfl⟩ := hu
    rfl
  obtain ⟨d1, -, ⟨rfl, -⟩ | hr⟩ := postOpen_cases hn h
  · exact hun _ _ _ hkt hv
  · rw [get_rename hr] at hv
    simp only [Option.map_eq_some_iff] at hv
    obtain ⟨u, hu, rfl⟩ := hv
    change u.units = _
    split_ifs at hu with h1 h2
    · exact hun _ "num_test_times" _ (by simp [timeVars]) hu
    · exact hun _ _ _ hkt hu

/-- a file of analogs: two search times, one test time -/
def analogs : Dataset Nat :=
  ⟨[("search_times", ⟨[("num_search_times", 2)], none, .other 1⟩),
    ("test_times", ⟨[("num_test_times", 1)], none, .other 2⟩)], []⟩

/-- The claim is false: the coordinate `num_search_times`, a copy of `search_times`, carries no units, so
`decode=True` does not turn it into dates although it does so for `num_times`. -/
theorem C68_false : ∃ ds', postOpen analogs = .ok ds' ∧
    ds'.get? "num_search_times" = some ⟨[("num_search_times", 2)], none, .other 1⟩ ∧
    ds'.get? "num_times" = some ⟨[("num_times", 1)], some epoch, .other 2⟩ ∧
    ds'.get? "search_times" = some ⟨[("num_search_times", 2)], some epoch, .other 1⟩ :=
  ⟨⟨[("search_times", ⟨[("num_search_times", 2)], some epoch, .other 1⟩),
    ("test_times", ⟨[("num_times", 1)], some epoch, .other 2⟩),
    ("num_times", ⟨[("num_times", 1)], some epoch, .other 2⟩),
    ("num_search_times", ⟨[("num_search_times", 2)], none, .other 1⟩)], ["num_times", "num_search_times"]⟩,
    by decide +kernel, by decide +kernel, by decide +kernel, by decide +kernel⟩

/-- a file with times and a character array with two more dimensions -/
def textCube : Dataset Nat :=
  ⟨[("cube", ⟨[("a", 1), ("b", 1), ("num_chars", 2)], none, .chars []⟩),
    ("Times", ⟨[("num_times", 1)], none, .other 1⟩)], []⟩

/-- It is also false in the presence of an undecodable character variable: the function returns before times are
handled. -/
theorem C68_false_early : postOpen textCube = .ok textCube ∧
    textCube.get? "Times" = some ⟨[("num_times", 1)], none, .other 1⟩ := by decide +kernel

example : ¬ Undecodable analogs := by
  rintro ⟨kv, h, h1, h2⟩
  simp only [analogs, List.mem_cons, List.not_mem_nil, or_false] at h
  rcases h with rfl | rfl <;> exact absurd h1 (by decide)

/-! ### C69 -/

/-- the value of a name of a dimension after the renaming of test times -/
def NewDims (v v' : DVar D) : Prop :=
  v'.dims = (v.dims.filter fun d => d.1 ≠ "num_chars") ∨
  v'.dims = (v.dims.filter fun d => d.1 ≠ "num_chars").map fun d => (if d.1 = "num_test_times" then "num_times" else d.1, d.2)

/-- Every variable of the file that is not itself one of the five coordinates keeps its values and its dimensions;
matrices of characters become lists of names, without the character dimension. -/
theorem C69_data {ds ds' : Dataset D} (hn : ¬ Undecodable ds) (h : postOpen ds = .ok ds') {k : String}
    (hk : k ∉ ["num_flts", "num_parameters", "num_test_times", "num_search_times", "num_times"]) {v : DVar D}
    (hv : ds.get? k = some v) :
    ∃ v', ds'.get? k = some v' ∧ NewDims v v' ∧
      (hasChars v = false → v'.data = v.data) ∧
      (hasChars v = true → ∀ m, v.data = .chars m → v'.data = .names (m.map List.flatten)) := by
  have hdec : (⟨ds.vars.map fun kv => (kv.1, decodeVar kv.2), ds.coords⟩ : Dataset D).get? k = some (decodeVar v) := by
    unfold Dataset.get? at hv ⊢
    rw [lookup_map ds.vars (fun _ v => decodeVar v), hv]
    rfl
  obtain ⟨d1, h1, h2⟩ := postOpen_cases hn h
  have hg1 : d1.get? k = some (decodeVar v) := by
    rw [coordLoop_other h1 (by simpa [coordsDict] using hk), hdec]
  have hg2 : ∃ u, (⟨unitLoop d1.vars, d1.coords⟩ : Dataset D).get? k = some u ∧ u.dims = (decodeVar v).dims ∧
      u.data = (decodeVar v).data := by
    unfold Dataset.get? at hg1 ⊢
    rw [lookup_unitLoop, hg1]
    refine ⟨_, rfl, ?_, ?_⟩ <;> split <;> rfl
  have hdims : (decodeVar v).dims = v.dims.filter fun d => d.1 ≠ "num_chars" := by
    unfold decodeVar
    split
    · rfl
    · rename_i hc
      symm
      rw [List.filter_eq_self]
      intro d hd
      simp only [ne_eq, decide_not, Bool.not_eq_eq_eq_not, Bool.not_true, decide_eq_false_iff_not]
      rintro he
      apply hc
      unfold hasChars
      rw [List.any_eq_true]
      exact ⟨d, hd, by simpa using he⟩
  have hdata1 : hasChars v = false → (decodeVar v).data = v.data := by
    intro hc; simp [decodeVar, hc]
  have hdata2 : hasChars v = true → ∀ m, v.data = .chars m → (decodeVar v).data = .names (m.map List.flatten) := by
    intro hc m hm
    simp [decodeVar, hc, hm, decodeNames]
  obtain ⟨u, hu, hud, hux⟩ := hg2
  rcases h2 with ⟨rfl, -⟩ | hr
  · exact ⟨u, hu, Or.inl (hud.trans hdims), fun hc => hux.trans (hdata1 hc), fun hc m hm => hux.trans (hdata2 hc m hm)⟩
  · simp only [List.mem_cons, List.not_mem_nil, or_false, not_or] at hk
    refine ⟨renVar "num_test_times" "num_times" u, ?_, Or.inr ?_, fun hc => hux.trans (hdata1 hc),
      fun hc m hm => hux.trans (hdata2 hc m hm)⟩
    · rw [get_rename hr, if_neg hk.2.2.2.2, if_neg hk.2.2.1, hu]
      rfl
    · unfold renVar
      simp only [hud, hdims]
      rfl

/-- The result never uses `num_test_times` without `num_times`: files of analogs and of forecasts name their time
dimension alike. -/
theorem C69_time_dimension {ds ds' : Dataset D} (hn : ¬ Undecodable ds) (h : postOpen ds = .ok ds')
    (ht : ds'.hasDim "num_test_times" = true) : ds'.hasDim "num_times" = true := by
  obtain ⟨d1, -, ⟨-, h2⟩ | hr⟩ := postOpen_cases hn h
  · exact h2 ht
  · exfalso
    unfold Dataset.rename at hr
    split_ifs at hr
    simp only [Except.ok.injEq] at hr
    subst hr
    rw [hasDim_iff] at ht
    obtain ⟨kv, h1, n, h3⟩ := ht
    obtain ⟨kv', -, rfl⟩ := List.mem_map.1 h1
    simp only [List.mem_map, Prod.mk.injEq] at h3
    obtain ⟨d, -, h4, -⟩ := h3
    unfold renDim at h4
    split_ifs at h4 with h5
    · exact absurd h4 (by decide)
    · exact h5 h4

/-- The values of a coordinate: lead times for `num_flts`, names of parameters for `num_parameters`, times for the three
dimensions of times.  A file with such a variable along its dimension gets the coordinate, with the values of that
variable; `num_test_times` may have become `num_times`. -/
theorem C69_coordinates {ds ds' : Dataset D} (hn : ¬ Undecodable ds) (h : postOpen ds = .ok ds') {k s : String}
    (hks : (k, s) ∈ [("num_flts", "FLTs"), ("num_parameters", "ParameterNames"), ("num_test_times", "test_times"),
      ("num_search_times", "search_times"), ("num_times", "Times")])
    {x : DVar D} (hx : ds.get? s = some x) {n : Nat} (hd : (k, n) ∈ x.dims) :
    ∃ k' c x', (k' = k ∨ k = "num_test_times" ∧ k' = "num_times") ∧
      ds'.get? k' = some c ∧ ds'.get? s = some x' ∧ c.data = x'.data ∧ c.dims = x'.dims ∧
      (hasChars x = false → c.data = x.data) ∧
      (hasChars x = true → ∀ m, x.data = .chars m → c.data = .names (m.map List.flatten)) := by
  have hs5 : s ∉ ["num_flts", "num_parameters", "num_test_times", "num_search_times", "num_times"] := by
    simp only [List.mem_cons, Prod.mk.injEq, List.not_mem_nil, or_false] at hks
    rcases hks with ⟨-, rfl⟩ | ⟨-, rfl⟩ | ⟨-, rfl⟩ | ⟨-, rfl⟩ | ⟨-, rfl⟩ <;> decide
  obtain ⟨x', hx', -, hdat, hchr⟩ := C69_data hn h hs5 hx
  have hkc : k ≠ "num_chars" := by
    simp only [List.mem_cons, Prod.mk.injEq, List.not_mem_nil, or_false] at hks
    rcases hks with ⟨rfl, -⟩ | ⟨rfl, -⟩ | ⟨rfl, -⟩ | ⟨rfl, -⟩ | ⟨rfl, -⟩ <;> decide
  have hdec : (⟨ds.vars.map fun kv => (kv.1, decodeVar kv.2), ds.coords⟩ : Dataset D).get? s = some (decodeVar x) := by
    unfold Dataset.get? at hx ⊢
    rw [lookup_map ds.vars (fun _ v => decodeVar v), hx]
    rfl
  have hdd : (k, n) ∈ (decodeVar x).dims := by
    unfold decodeVar
    split
    · exact List.mem_filter.2 ⟨hd, by simpa using hkc⟩
    · exact hd
  obtain ⟨d1, h1, h2⟩ := postOpen_cases hn h
  obtain ⟨g1, g2⟩ := coordLoop_copy (by decide) (by decide) h1 hks hdec hdd
  have hu : ∀ j : String, d1.get? j = some (decodeVar x) → ∃ u, (⟨unitLoop d1.vars, d1.coords⟩ : Dataset D).get? j = some u ∧
      u.dims = (decodeVar x).dims ∧ u.data = (decodeVar x).data := by
    intro j hj
    unfold Dataset.get? at hj ⊢
    rw [lookup_unitLoop, hj]
    refine ⟨_, rfl, ?_, ?_⟩ <;> split <;> rfl
  obtain ⟨uk, ek, dk, vk⟩ := hu k g1
  obtain ⟨us, es, dsd, vs⟩ := hu s g2
  rcases h2 with ⟨rfl, -⟩ | hr
  · rw [hx'] at es
    cases es
    have : uk.data = x'.data := vk.trans vs.symm
    exact ⟨k, uk, x', Or.inl rfl, ek, hx', this, dk.trans dsd.symm, fun hc => this.trans (hdat hc),
      fun hc m hm => this.trans (hchr hc m hm)⟩
  · have hsn : s ≠ "num_times" ∧ s ≠ "num_test_times" := by
      constructor <;> rintro rfl <;> exact hs5 (by simp)
    have e3 := hx'
    rw [get_rename hr, if_neg hsn.1, if_neg hsn.2, es] at e3
    simp only [Option.map_some, Option.some.injEq] at e3
    have hknt : k ≠ "num_times" := by
      rintro rfl
      unfold Dataset.rename at hr
      rw [if_pos (Or.inl (by rw [ek]; rfl))] at hr
      cases hr
    have hval : (renVar "num_test_times" "num_times" uk).data = x'.data := by
      rw [← e3]; exact vk.trans vs.symm
    have hdim : (renVar "num_test_times" "num_times" uk).dims = x'.dims := by
      rw [← e3]; simp only [renVar, dk, dsd]
    by_cases hkt : k = "num_test_times"
    · refine ⟨"num_times", renVar "num_test_times" "num_times" uk, x', Or.inr ⟨hkt, rfl⟩, ?_, hx', hval, hdim,
        fun hc => hval.trans (hdat hc), fun hc m hm => hval.trans (hchr hc m hm)⟩
      rw [get_rename hr, if_pos rfl, ← hkt, ek]
      rfl
    · refine ⟨k, renVar "num_test_times" "num_times" uk, x', Or.inl rfl, ?_, hx', hval, hdim,
        fun hc => hval.trans (hdat hc), fun hc m hm => hval.trans (hchr hc m hm)⟩
      rw [get_rename hr, if_neg hknt, if_neg hkt, ek]
      rfl

/-- the hypotheses on a file of analogs: the test times lie along `num_test_times` -/
example : analogs.get? "test_times" = some ⟨[("num_test_times", 1)], none, .other 2⟩ ∧
    (postOpen analogs).toOption.bind (fun d => d.get? "num_times") =
      some ⟨[("num_times", 1)], some epoch, .other 2⟩ := by decide +kernel

/-- names padded with NUL bytes -/
def named : Dataset Nat :=
  ⟨[("ParameterNames", ⟨[("num_parameters", 2), ("num_chars", 3)], none,
      .chars [[['u'], ['1'], ['0']], [['t'], [], []]]⟩),
    ("Forecasts", ⟨[("num_parameters", 2)], none, .other 9⟩)], []⟩

example : ∃ ds', postOpen named = .ok ds' ∧
    ds'.get? "num_parameters" = some ⟨[("num_parameters", 2)], none, .names ["u10".toList, "t".toList]⟩ :=
  ⟨⟨[("ParameterNames", ⟨[("num_parameters", 2)], none, .names ["u10".toList, "t".toList]⟩),
    ("Forecasts", ⟨[("num_parameters", 2)], none, .other 9⟩),
    ("num_parameters", ⟨[("num_parameters", 2)], none, .names ["u10".toList, "t".toList]⟩)], ["num_parameters"]⟩,
    by decide +kernel, by decide +kernel⟩

/-- A dataset names every variable once: coordinates that are already there are replaced, not added again. -/
theorem C69_unique {ds ds' : Dataset D} (hd : (ds.vars.map Prod.fst).Nodup) (h : postOpen ds = .ok ds') :
    (ds'.vars.map Prod.fst).Nodup := by
  have hr : ((if ds.hasDim "num_chars" then decodeVars ds.vars else (ds.vars, false)).1.map Prod.fst).Nodup := by
    split_ifs
    · rw [decodeVars_fst]; exact hd
    · exact hd
  unfold postOpen at h
  simp only at h
  generalize (if ds.hasDim "num_chars" then decodeVars ds.vars else (ds.vars, false)) = r at h hr
  split_ifs at h
  · cases h; exact hr
  · split at h
    · cases h
    · rename_i d1 h1
      have hu : ((unitLoop d1.vars).map Prod.fst).Nodup := by
        rw [unitLoop_fst]; exact coordLoop_nodup h1 hr
      split_ifs at h
      · exact rename_nodup h hu
      · cases h; exact hu

/-- The names in the result are those of the file and the five coordinates. -/
theorem C69_absent {ds ds' : Dataset D} (hn : ¬ Undecodable ds) (h : postOpen ds = .ok ds') {k : String}
    (hk : k ∉ ["num_flts", "num_parameters", "num_test_times", "num_search_times", "num_times"])
    (hv : ds.get? k = none) : ds'.get? k = none := by
  have hdec : (⟨ds.vars.map fun kv => (kv.1, decodeVar kv.2), ds.coords⟩ : Dataset D).get? k = none := by
    unfold Dataset.get? at hv ⊢
    rw [lookup_map ds.vars (fun _ v => decodeVar v), hv]
    rfl
  obtain ⟨d1, h1, h2⟩ := postOpen_cases hn h
  have hg1 : d1.get? k = none := by
    rw [coordLoop_other h1 (by simpa [coordsDict] using hk), hdec]
  have hg2 : (⟨unitLoop d1.vars, d1.coords⟩ : Dataset D).get? k = none := by
    unfold Dataset.get? at hg1 ⊢
    rw [lookup_unitLoop, hg1]
    rfl
  rcases h2 with ⟨rfl, -⟩ | hr
  · exact hg2
  · simp only [List.mem_cons, List.not_mem_nil, or_false, not_or] at hk
    rw [get_rename hr, if_neg hk.2.2.2.2, if_neg hk.2.2.1, hg2]
    rfl

/-- the names of all variables of `named` differ -/
example : (named.vars.map Prod.fst).Nodup := by decide

/-- a file that already has the coordinate `num_flts`: it is replaced -/
def hasFlts : Dataset Nat :=
  ⟨[("num_flts", ⟨[("num_flts", 2)], none, .other 7⟩), ("FLTs", ⟨[("num_flts", 2)], none, .other 8⟩)], []⟩

example : ∃ ds', postOpen hasFlts = .ok ds' ∧ ds'.vars.length = 2 ∧
    ds'.get? "num_flts" = some ⟨[("num_flts", 2)], none, .other 8⟩ :=
  ⟨⟨[("num_flts", ⟨[("num_flts", 2)], none, .other 8⟩), ("FLTs", ⟨[("num_flts", 2)], none, .other 8⟩)], ["num_flts"]⟩,
    by decide +kernel, by decide +kernel, by decide +kernel⟩

/-! ### C79 -/

/-- the five names `open_dataset` may redefine -/
def coordNames : List String := ["num_flts", "num_parameters", "num_test_times", "num_search_times", "num_times"]

theorem newDims_len {v v' : DVar D} (h : NewDims v v') (hc : hasChars v = false) : v'.len = v.len := by
  have hf : (v.dims.filter fun d => d.1 ≠ "num_chars") = v.dims := by
    rw [List.filter_eq_self]
    intro d hd
    simp only [ne_eq, decide_not, Bool.not_eq_eq_eq_not, Bool.not_true, decide_eq_false_iff_not]
    intro he
    have : hasChars v = true := by
      unfold hasChars
      rw [List.any_eq_true]
      exact ⟨d, hd, by simpa using he⟩
    rw [hc] at this
    cases this
  unfold NewDims at h
  rw [hf] at h
  unfold DVar.len
  rcases h with h | h
  · rw [h]
  · rw [h]
    cases v.dims <;> rfl

/-- A file with an undecodable variable of characters is returned before anything else is done to it. -/
theorem postOpen_undecodable {ds : Dataset D} (hu : Undecodable ds) :
    postOpen ds = .ok ⟨(decodeVars ds.vars).1, ds.coords⟩ := by
  have hd : ds.hasDim "num_chars" = true := by
    obtain ⟨kv, hkv, hc, -⟩ := hu
    unfold hasChars at hc
    rw [List.any_eq_true] at hc
    obtain ⟨⟨a, n⟩, h1, h2⟩ := hc
    simp only [decide_eq_true_eq] at h2
    subst h2
    exact (hasDim_iff _ _).2 ⟨kv, hkv, n, h1⟩
  unfold postOpen
  rw [if_pos hd]
  simp only [(decodeVars_flag _).2 hu, if_true]

/-- what `open_dataset` makes of a variable without characters, in any file -/
theorem postOpen_plain {ds ds' : Dataset D} (h : postOpen ds = .ok ds') {k : String} (hk : k ∉ coordNames) :
    (ds.get? k = none → ds'.get? k = none) ∧
    ∀ v, ds.get? k = some v → hasChars v = false → ∃ v', ds'.get? k = some v' ∧ v'.len = v.len ∧ v'.data = v.data := by
  by_cases hu : Undecodable ds
  · rw [postOpen_undecodable hu] at h
    cases h
    have := lookup_decodeVars ds.vars k
    exact ⟨this.1, fun v hv hc => ⟨v, this.2 v hv hc, rfl, rfl⟩⟩
  · refine ⟨C69_absent hu h hk, fun v hv hc => ?_⟩
    obtain ⟨v', h1, h2, h3, -⟩ := C69_data hu h hk hv
    exact ⟨v', h1, newDims_len h2 hc, h3 hc⟩

section C79
variable {ds ds' : Dataset D} (h : postOpen ds = .ok ds') {vx vy : String}
  (hvx : vx ∉ coordNames) (hvy : vy ∉ coordNames)
include h hvx hvy

/-- The coordinates of the stations are the two variables of the file, unchanged, x first. -/
theorem C79_values {x y : DVar D} (hx : ds.get? vx = some x) (hy : ds.get? vy = some y)
    (hcx : hasChars x = false) (hcy : hasChars y = false) {n : Nat} {dx dy : String} {rx ry : List (String × Nat)}
    (hnx : x.dims = (dx, n) :: rx) (hny : y.dims = (dy, n) :: ry) :
    readStationCoordinates ds vx vy = .ok (x.data, y.data) := by
  obtain ⟨x', hx', lx, hxd⟩ := (postOpen_plain h hvx).2 x hx hcx
  obtain ⟨y', hy', ly, hyd⟩ := (postOpen_plain h hvy).2 y hy hcy
  have lx' : x'.len = .ok n := by rw [lx]; unfold DVar.len; rw [hnx]
  have ly' : y'.len = .ok n := by rw [ly]; unfold DVar.len; rw [hny]
  unfold readStationCoordinates
  simp only [h, hx', hy', lx', ly', if_true, hxd, hyd]

/-- Different numbers of coordinates are refused. -/
theorem C79_lengths {x y : DVar D} (hx : ds.get? vx = some x) (hy : ds.get? vy = some y)
    (hcx : hasChars x = false) (hcy : hasChars y = false) {n m : Nat} {dx dy : String} {rx ry : List (String × Nat)}
    (hnx : x.dims = (dx, n) :: rx) (hny : y.dims = (dy, m) :: ry) (hne : n ≠ m) :
    readStationCoordinates ds vx vy = .error .assertion := by
  obtain ⟨x', hx', lx, hxd⟩ := (postOpen_plain h hvx).2 x hx hcx
  obtain ⟨y', hy', ly, hyd⟩ := (postOpen_plain h hvy).2 y hy hcy
  have lx' : x'.len = .ok n := by rw [lx]; unfold DVar.len; rw [hnx]
  have ly' : y'.len = .ok m := by rw [ly]; unfold DVar.len; rw [hny]
  unfold readStationCoordinates
  simp only [h, hx', hy', lx', ly', if_neg hne]

/-- A variable that the file does not have is a `KeyError`. -/
theorem C79_missing (hm : ds.get? vx = none ∨ ds.get? vy = none) :
    readStationCoordinates ds vx vy = .error .key := by
  unfold readStationCoordinates
  simp only [h]
  rcases hm with hm | hm
  · rw [(postOpen_plain h hvx).1 hm]
  · rw [(postOpen_plain h hvy).1 hm]
    cases ds'.get? vx <;> rfl

/-- A single number instead of a list of coordinates is a `TypeError`. -/
theorem C79_number {x y : DVar D} (hx : ds.get? vx = some x) (hy : ds.get? vy = some y)
    (hcx : hasChars x = false) (hcy : hasChars y = false) (hs : x.dims = [] ∨ y.dims = []) :
    readStationCoordinates ds vx vy = .error .type := by
  obtain ⟨x', hx', lx, -⟩ := (postOpen_plain h hvx).2 x hx hcx
  obtain ⟨y', hy', ly, -⟩ := (postOpen_plain h hvy).2 y hy hcy
  unfold readStationCoordinates
  simp only [h, hx', hy', lx, ly]
  unfold DVar.len
  rcases hs with hs | hs
  · simp only [hs]
  · cases hd : x.dims <;> simp only [hs]

end C79

/-- a file that cannot be opened has no coordinates -/
theorem C79_unreadable {ds : Dataset D} {e : Err} (h : postOpen ds = .error e) (vx vy : String) :
    readStationCoordinates ds vx vy = .error e := by
  unfold readStationCoordinates
  rw [h]

/-- two stations, a variable of the wrong length -/
def stationFile : Dataset Nat :=
  ⟨[("Xs", ⟨[("num_stations", 2)], none, .other 1⟩), ("Ys", ⟨[("num_stations", 2)], none, .other 2⟩),
    ("Times", ⟨[("num_test_times", 3)], none, .other 3⟩)], []⟩

example : readStationCoordinates stationFile "Xs" "Ys" = .ok (.other 1, .other 2) := by decide +kernel
example : readStationCoordinates stationFile "Xs" "Times" = .error .assertion := by decide +kernel
example : readStationCoordinates stationFile "Xs" "Zs" = .error .key := by decide +kernel
example : readStationCoordinates (D := Nat) ⟨[("Xs", ⟨[("num_stations", 2)], none, .other 1⟩), ("Ys", ⟨[], none, .other 2⟩)], []⟩
    "Xs" "Ys" = .error .type := by decide +kernel
example : ∃ ds', postOpen stationFile = .ok ds' :=
  ⟨⟨[("Xs", ⟨[("num_stations", 2)], none, .other 1⟩), ("Ys", ⟨[("num_stations", 2)], none, .other 2⟩),
    ("Times", ⟨[("num_times", 3)], some epoch, .other 3⟩)], []⟩, by decide +kernel⟩

end Props
