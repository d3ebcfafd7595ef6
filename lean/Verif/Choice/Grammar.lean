/-
The lists of alternatives of the SQL grammar that go into tables.

Code: /repo/sql_parsing/keywords.py `RESERVED` 159-224, `durations` 326-392; /repo/sql_parsing/types.py `simple_types` 104-143;
/repo/sql_parsing/sql_parser.py `_standard_time_intervals` 128-130; /repo/sql_parsing/utils.py `keyword` 37-40.

Each alternative begins with a `keyword`, so `expecting` has one key for it: the first word in lower case
(/repo/parsing/expressions.py 230-243, /repo/parsing/tokens.py 216-217, /repo/parsing/enhancement.py 61-65).
-/
import Verif.Choice.Props

namespace EulerDB.Choice

open EulerDB

variable {E R : Type}

/-! ### The order, checked -/

def between (all : List Key) (c a b : List Key) : Bool :=
  c.all fun k => !b.contains k || a.contains k || a.all fun k' => all.all fun m => !(m.isPrefixOf k && m.isPrefixOf k')

def orderedSnd (all : List Key) (c : List Key) : List (List Key) → Bool
  | [] => true
  | a :: r => (r.all fun b => between all c a b) && orderedSnd all c r

def orderedFst (all : List Key) : List (List Key) → Bool
  | [] => true
  | c :: r => orderedSnd all c r && orderedFst all r

/-- `Ordered`, by looking at the keys. -/
def orderedB (l : List (List Key)) : Bool := orderedFst l.flatten l

theorem orderedSnd_spec {keys : E → List Key} {all c : List Key} : ∀ {l : List E}, orderedSnd all c (l.map keys) = true → ∀ {a b}, List.Sublist [a, b] l →
    between all c (keys a) (keys b) = true
  | [], _, _, _, h => by cases h
  | x :: l, h, a, b, hs => by
    simp only [List.map_cons, orderedSnd, Bool.and_eq_true, List.all_eq_true] at h
    cases hs with
    | cons _ hs => exact orderedSnd_spec h.2 hs
    | cons_cons _ hs => exact h.1 _ (List.mem_map.2 ⟨b, List.singleton_sublist.1 hs, rfl⟩)

theorem orderedFst_spec {keys : E → List Key} {all : List Key} : ∀ {l : List E}, orderedFst all (l.map keys) = true → ∀ {c a b}, List.Sublist [c, a, b] l →
    between all (keys c) (keys a) (keys b) = true
  | [], _, _, _, _, h => by cases h
  | x :: l, h, c, a, b, hs => by
    simp only [List.map_cons, orderedFst, Bool.and_eq_true] at h
    cases hs with
    | cons _ hs => exact orderedFst_spec h.2 hs
    | cons_cons _ hs => exact orderedSnd_spec h.1 hs

theorem ordered_of {keys : E → List Key} {exprs : List E} (h : orderedB (exprs.map keys) = true) : Ordered keys exprs := by
  intro c a b hs m k k' ⟨o, ho, hm⟩ hc hb ha hp hp'
  have := orderedFst_spec h hs
  unfold between at this
  rw [List.all_eq_true] at this
  have := this k hc
  simp only [Bool.or_eq_true, Bool.not_eq_true', List.contains_iff_mem, List.all_eq_true] at this
  rcases this with (h1 | h1) | h1
  · rw [List.contains_iff_mem.2 hb] at h1
    cases h1
  · exact h1
  · exfalso
    have := h1 k' ha m (List.mem_flatten.2 ⟨_, List.mem_map.2 ⟨o, ho, rfl⟩, hm⟩)
    rw [isPrefix_iff.2 hp, isPrefix_iff.2 hp'] at this
    cases this

/-! ### Alternatives that begin with a word -/

/-- The letters of the words of the grammar. -/
def letters : List Char := "abcdefghijklmnopqrstuvwxyz0123456789_".toList

/-- The cases of these letters are what one expects. -/
def Plain (cs : Casing) : Prop := ∀ c ∈ letters, FitChar cs c

/-- An alternative: its place in the list and its first word. -/
abbrev Word := Nat × List Char

def wordKeys (w : Word) : List Key := [w.2]

def numbered (ws : List String) : List Word := ((List.range ws.length).zip (ws.map String.toList))

/-- **C89 for words.**  Alternatives that each begin with a word (and go on in any way): what `MatchFirst` answers is what the first that succeeds
answers. -/
theorem C89_words_partial {cs : Casing} (hcs : Plain cs) (ws : List Word) (hw : ∀ w ∈ ws, w.2 ≠ [] ∧ ∀ c ∈ w.2, c ∈ letters)
    (ho : orderedB (ws.map wordKeys) = true) (run : Word → Option R) (t : List Char)
    (hr : ∀ w ∈ ws, run w ≠ none → matches' (pattern cs w.2) t = true) :
    choose cs run t (faster (expectingOf wordKeys) ws) = .ok (first run ws) := by
  apply C89_first_partial
  · intro w hm
    refine ⟨by simp [wordKeys], ?_, ?_⟩
    · intro k hk
      simp only [wordKeys, List.mem_singleton] at hk
      subst hk
      exact ⟨(hw w hm).1, fun c hc => hcs c ((hw w hm).2 c hc)⟩
    · intro _ hne
      exact ⟨w.2, by simp [wordKeys], hr w hm hne⟩
  · exact ordered_of ho

/-- `RESERVED`: the first words. -/
def reserved : List Word := numbered
  ["all", "and", "as", "asc", "between", "by", "case", "collate", "constraint", "create", "cross", "desc", "distinct", "except", "else", "end",
   "false", "fetch", "foreign", "from", "full", "group", "group", "having", "in", "index", "inner", "intersect", "interval", "is", "is", "join",
   "key", "lateral", "left", "like", "limit", "minus", "nocase", "not", "null", "offset", "on", "or", "order", "outer", "over", "partition",
   "primary", "references", "right", "rlike", "select", "then", "true", "union", "unique", "using", "when", "where", "window", "with", "within"]

/-- `simple_types`: the first words. -/
def simpleTypes : List Word := numbered
  ["array", "bigint", "bool", "boolean", "blob", "bytes", "char", "date", "datetime", "datetime", "decimal", "double", "double", "float64", "float",
   "geometry", "map", "integer", "int", "int32", "int64", "nchar", "number", "numeric", "real", "text", "smallint", "string", "time", "timestamp",
   "timestamp", "timestamptz", "timetz", "tinyint", "uuid", "varchar", "varchar2", "varbinary"]

/-- `durations`: the keys, in their order. -/
def durations : List Word := numbered
  ["microseconds", "microsecond", "microsecs", "microsec", "useconds", "usecond", "usecs", "usec", "us", "milliseconds", "millisecond",
   "millisecon", "mseconds", "msecond", "millisecs", "millisec", "msecs", "msec", "ms", "seconds", "second", "secs", "sec", "s", "minutes",
   "minute", "mins", "min", "m", "hours", "hour", "hrs", "hr", "h", "days", "day", "d", "dayofweek", "dow", "weekday", "weeks", "week",
   "w", "months", "month", "mons", "mon", "quarters", "quarter", "years", "year", "decades", "decade", "decs", "dec", "centuries",
   "century", "cents", "cent", "c", "millennia", "millennium", "mils", "mil", "epoch"]

/-- The words of a list are words of the letters above. -/
def wordsB (ws : List Word) : Bool := ws.all fun w => !w.2.isEmpty && w.2.all fun c => letters.contains c

theorem words_of {ws : List Word} (h : wordsB ws = true) : ∀ w ∈ ws, w.2 ≠ [] ∧ ∀ c ∈ w.2, c ∈ letters := by
  intro w hw
  unfold wordsB at h
  rw [List.all_eq_true] at h
  have := h w hw
  simp only [Bool.and_eq_true, Bool.not_eq_true', List.all_eq_true, List.contains_iff_mem] at this
  refine ⟨?_, this.2⟩
  intro e
  rw [e] at this
  simp at this

/-- **C89, the reserved words.** -/
theorem C89_reserved_partial {cs : Casing} (hcs : Plain cs) (run : Word → Option R) (t : List Char)
    (hr : ∀ w ∈ reserved, run w ≠ none → matches' (pattern cs w.2) t = true) :
    choose cs run t (faster (expectingOf wordKeys) reserved) = .ok (first run reserved) :=
  C89_words_partial hcs reserved (words_of (by decide +kernel)) (by decide +kernel) run t hr

/-- **C89, the types of columns.** -/
theorem C89_types_partial {cs : Casing} (hcs : Plain cs) (run : Word → Option R) (t : List Char)
    (hr : ∀ w ∈ simpleTypes, run w ≠ none → matches' (pattern cs w.2) t = true) :
    choose cs run t (faster (expectingOf wordKeys) simpleTypes) = .ok (first run simpleTypes) :=
  C89_words_partial hcs simpleTypes (words_of (by decide +kernel)) (by decide +kernel) run t hr

/-- **C89, the units of time.** -/
theorem C89_durations_partial {cs : Casing} (hcs : Plain cs) (run : Word → Option R) (t : List Char)
    (hr : ∀ w ∈ durations, run w ≠ none → matches' (pattern cs w.2) t = true) :
    choose cs run t (faster (expectingOf wordKeys) durations) = .ok (first run durations) :=
  C89_words_partial hcs durations (words_of (by decide +kernel)) (by decide +kernel) run t hr

/-! ### An example -/

/-- The cases of the letters of English. -/
def english : Casing := ⟨fun c => [c.toLower], fun c => [c.toUpper]⟩

theorem english_plain : Plain english := by
  intro c hc
  have : letters.all fun c => decide (english.lc c = [c] ∧ english.lc c.toUpper = [c]) = true := by decide +kernel
  rw [List.all_eq_true] at this
  have := this c hc
  simp only [decide_eq_true_eq] at this
  exact ⟨this.1, c.toUpper, rfl, this.2⟩

/-- A parser of the word and nothing after it but a character that is not one of a word. -/
def wordRun (cs : Casing) (t : List Char) (w : Word) : Option Nat :=
  if matches' (pattern cs w.2) t && !((t.drop w.2.length).take 1).any (fun c => letters.contains c.toLower) then some w.1 else none

/-- The tables are used: there is one for the types of columns, and one for the reserved words. -/
example : (faster (expectingOf wordKeys) simpleTypes).length = 1 ∧ (faster (expectingOf wordKeys) reserved).length = 1 := by decide +kernel

example : choose english (wordRun english "TimeStamp with".toList) "TimeStamp with".toList (faster (expectingOf wordKeys) simpleTypes) =
    .ok (first (wordRun english "TimeStamp with".toList) simpleTypes) :=
  C89_types_partial english_plain _ _ (by
    intro w _ h
    unfold wordRun at h
    by_contra hm
    rw [Bool.not_eq_true] at hm
    rw [hm] at h
    exact h rfl)

end EulerDB.Choice
