import Verif.Props.Decode

/-!
# Cases for C133: analogs with and without units, hours since 2000
-/

namespace Props
open Np NDArr Model Lemmas

/-- a reader of two texts; the year 2000 began 946684800 seconds after 1970 -/
def twoUnits : UnitReader ℚ := fun u =>
  if u = "seconds since 1970-01-01" then some (1, 0)
  else if u = "hours since 2000-01-01" then some (3600, 946684800)
  else none

example : ReadsEpoch twoUnits := by unfold ReadsEpoch twoUnits; simp

def oneNum (x : ℚ) : NDArr (Fl ℚ) := ⟨[1], [some x], rfl⟩

/-- analogs of one test time and one search time, an hour and two hours into 1970, with a temperature and the time of
writing in hours since 2000 -/
def analogFile (units : Option String) : Block ℚ :=
  ⟨[("search_times", ⟨[("num_search_times", 1)], units, .other (oneNum 7200)⟩),
    ("test_times", ⟨[("num_test_times", 1)], units, .other (oneNum 3600)⟩),
    ("temperature", ⟨[("num_test_times", 1)], some "K", .other (oneNum 280)⟩),
    ("written", ⟨[("num_test_times", 1)], some "hours since 2000-01-01", .other (oneNum 2)⟩)], []⟩

theorem analogFile_decodable (units : Option String) : ¬ Undecodable (analogFile units) := by
  rintro ⟨kv, h, h1, -⟩
  simp only [analogFile, List.mem_cons, List.not_mem_nil, or_false] at h
  rcases h with rfl | rfl | rfl | rfl <;> exact absurd h1 (by simp [hasChars])

/-- the dataset returned for `analogFile none` -/
def analogDates : Dataset (Decoded ℚ) :=
  ⟨[("search_times", ⟨[("num_search_times", 1)], none, .other (.dates (oneNum 7200))⟩),
    ("test_times", ⟨[("num_times", 1)], none, .other (.dates (oneNum 3600))⟩),
    ("temperature", ⟨[("num_times", 1)], some "K", .other (.plain (oneNum 280))⟩),
    ("written", ⟨[("num_times", 1)], none, .other (.dates (oneNum 946692000))⟩),
    ("num_times", ⟨[("num_times", 1)], none, .other (.dates (oneNum 3600))⟩),
    ("num_search_times", ⟨[("num_search_times", 1)], none, .other (.plain (oneNum 7200))⟩)],
    ["num_times", "num_search_times"]⟩

/-- the hypotheses of the theorems hold, in versions of xarray with and without durations -/
theorem analogFile_opens (deltas : Bool) : openDataset twoUnits deltas true (analogFile none) = .ok analogDates := by
  cases deltas <;> decide +kernel

/-- The claim is false of the coordinate of the search times: `search_times` holds dates, its copy `num_search_times`
numbers. -/
theorem C133_false_search : ∃ r, openDataset twoUnits true true (analogFile none) = .ok r ∧
    r.get? "search_times" = some ⟨[("num_search_times", 1)], none, .other (.dates (oneNum 7200))⟩ ∧
    r.get? "num_search_times" = some ⟨[("num_search_times", 1)], none, .other (.plain (oneNum 7200))⟩ :=
  ⟨analogDates, analogFile_opens true, by decide +kernel, by decide +kernel⟩

/-- two hours since 2000 -/
def hoursFile : Block ℚ :=
  ⟨[("Times", ⟨[("num_times", 1)], some "hours since 2000-01-01", .other (oneNum 2)⟩)], []⟩

/-- The claim is false of files with other units: two hours into 2000 become two seconds into 1970, without a warning. -/
theorem C133_false_units : ∃ r, openDataset twoUnits true true hoursFile = .ok r ∧
    r.get? "Times" = some ⟨[("num_times", 1)], none, .other (.dates (oneNum 2))⟩ ∧
    twoUnits "hours since 2000-01-01" = some (3600, 946684800) :=
  ⟨⟨[("Times", ⟨[("num_times", 1)], none, .other (.dates (oneNum 2))⟩),
    ("num_times", ⟨[("num_times", 1)], none, .other (.dates (oneNum 2))⟩)], ["num_times"]⟩,
    by decide +kernel, by decide +kernel, by decide +kernel⟩

/-- with these units the dates of `search_times` and of its coordinate differ -/
example : ∃ r, openDataset twoUnits true true (analogFile (some "hours since 2000-01-01")) = .ok r ∧
    r.get? "search_times" = some ⟨[("num_search_times", 1)], none, .other (.dates (oneNum 7200))⟩ ∧
    r.get? "num_search_times" = some ⟨[("num_search_times", 1)], none, .other (.dates (oneNum 972604800))⟩ :=
  ⟨⟨[("search_times", ⟨[("num_search_times", 1)], none, .other (.dates (oneNum 7200))⟩),
    ("test_times", ⟨[("num_times", 1)], none, .other (.dates (oneNum 3600))⟩),
    ("temperature", ⟨[("num_times", 1)], some "K", .other (.plain (oneNum 280))⟩),
    ("written", ⟨[("num_times", 1)], none, .other (.dates (oneNum 946692000))⟩),
    ("num_times", ⟨[("num_times", 1)], none, .other (.dates (oneNum 3600))⟩),
    ("num_search_times", ⟨[("num_search_times", 1)], none, .other (.dates (oneNum 972604800))⟩)],
    ["num_times", "num_search_times"]⟩, by decide +kernel, by decide +kernel, by decide +kernel⟩

/-- units nobody can read -/
example : openDataset twoUnits true true
    ⟨[("written", ⟨[("num_stations", 1)], some "moons since Easter", .other (oneNum 2)⟩)], []⟩ = .error .value := by
  decide +kernel

/-- a file with times and a character array with two more dimensions -/
def cubeFile : Block ℚ :=
  ⟨[("cube", ⟨[("a", 1), ("b", 1), ("num_chars", 2)], none, .chars []⟩),
    ("Times", ⟨[("num_times", 1)], none, .other (oneNum 2)⟩)], []⟩

example : Undecodable cubeFile := ⟨("cube", _), by simp [cubeFile]; rfl, by decide, by decide⟩

example : (openDataset twoUnits true true cubeFile).toOption.bind (fun r => r.get? "Times") =
    some ⟨[("num_times", 1)], none, .other (.plain (oneNum 2))⟩ := by decide +kernel

/-- lead times in hours and a name written as single characters -/
def leadFile : Block ℚ :=
  ⟨[("lead", ⟨[("n", 1)], some "hours", .other (oneNum 6)⟩),
    ("site", ⟨[("n", 1), ("len", 2)], none, .chars [[['a'], ['b']]]⟩)], []⟩

/-- six hours are 21600 seconds, the characters become a text -/
example : ¬ Undecodable leadFile ∧ Lasts "hours" (3600 : ℚ) ∧ openDataset twoUnits true true leadFile = .ok
    ⟨[("lead", ⟨[("n", 1)], none, .other (.spans (oneNum 21600))⟩), ("site", ⟨[("n", 1)], none, .names [['a', 'b']]⟩)], []⟩ := by
  refine ⟨?_, .inr (.inl ⟨rfl, by norm_num⟩), by decide +kernel⟩
  rintro ⟨kv, h, h1, -⟩
  simp only [leadFile, List.mem_cons, List.not_mem_nil, or_false] at h
  rcases h with rfl | rfl <;> exact absurd h1 (by simp [hasChars])

/-- without decoding the hours stay hours and the characters single -/
example : openDataset twoUnits true false leadFile = .ok
    ⟨[("lead", ⟨[("n", 1)], some "hours", .other (.plain (oneNum 6))⟩),
      ("site", ⟨[("n", 1), ("len", 2)], none, .chars [[['a'], ['b']]]⟩)], []⟩ := by decide +kernel

end Props
