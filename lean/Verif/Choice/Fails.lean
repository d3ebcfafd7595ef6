/-
**C89, where it fails**: alternatives that change places in the table, characters whose capital or small letter is not in the table, and parsers
that succeed without reading anything.
-/
import Verif.Choice.Grammar

namespace EulerDB.Choice

open EulerDB

variable {R : Type}

/-- Four alternatives beginning with words that nothing else begins with. -/
def others : List Word := [(3, "v".toList), (4, "w".toList), (5, "x".toList), (6, "y".toList)]

/-! ### Order -/

/-- The alternatives `ab`, `a`, `ab` and four others. -/
def swapped : List Word := [(0, "ab".toList), (1, "a".toList), (2, "ab".toList)] ++ others

/-- The table they give: the parsers of the key that is met first come first. -/
def swappedTable : List (Key × List Word) :=
  [("a".toList, [(0, "ab".toList), (2, "ab".toList), (1, "a".toList)]), ("v".toList, [(3, "v".toList)]), ("w".toList, [(4, "w".toList)]),
   ("x".toList, [(5, "x".toList)]), ("y".toList, [(6, "y".toList)])]

theorem table_swapped : table (swapped.map (expectingOf wordKeys)) = .ok swappedTable := by decide +kernel

theorem faster_of_table {E : Type} {keys : E → List Key} {exprs : List E} {f : List (Key × List E)} (hl : 4 ≤ exprs.length)
    (hx : ∀ o ∈ exprs, keys o ≠ []) (h : table (exprs.map (expectingOf keys)) = .ok f) : faster (expectingOf keys) exprs = [.fast f] := by
  have key : ∀ (r out : List E), (∀ o ∈ r, keys o ≠ []) →
      fasterFrom (expectingOf keys) (some (out.map (expectingOf keys), out)) r = flush ((out ++ r).map (expectingOf keys)) (out ++ r) := by
    intro r
    induction r with
    | nil => intro out _; rw [fasterFrom, List.append_nil]
    | cons o r ih =>
      intro out hr
      rw [fasterFrom, expecting_isEmpty, if_neg (by
        have := hr o (by simp)
        cases h : keys o with
        | nil => exact absurd h this
        | cons a b => simp)]
      have := ih (out ++ [o]) fun o ho => hr o (by simp [ho])
      rw [List.map_append] at this
      rw [List.append_assoc] at this
      exact this
  unfold faster
  rw [if_neg (by unfold lookupCost; omega)]
  have := key exprs [] hx
  rw [List.map_nil, List.nil_append] at this
  rw [this]
  unfold flush
  rw [h]

/-- **C89 fails: two alternatives change places.**  Of the alternatives `ab`, `a`, `ab` and four others, the first fails and the next two
succeed: the third is taken. -/
theorem C89_fails_order (run : Word → Option R) (t : List Char) (r2 : R) (h0 : run (0, "ab".toList) = none)
    (h2 : run (2, "ab".toList) = some r2) :
    choose english run ('a' :: t) (faster (expectingOf wordKeys) swapped) = .ok (some r2) := by
  rw [faster_of_table (by decide) (by intro o _; simp [wordKeys]) table_swapped, choose]
  have hs : shortList english swappedTable ('a' :: t) = .ok [(0, "ab".toList), (2, "ab".toList), (1, "a".toList)] := by
    have hf : found english swappedTable ('a' :: t) = some ['a'] := by
      simp only [found, swappedTable, List.find?_cons]
      rfl
    unfold shortList
    rw [hf]
    decide +kernel
  unfold Fast.parse
  rw [hs]
  simp only [first, List.findSome?_cons, h0, h2]

/-- The one that is tried first gives something else. -/
example : ∃ run : Word → Option Nat, run (0, "ab".toList) = none ∧ run (2, "ab".toList) = some 2 ∧ first run swapped = some 1 ∧
    ∀ w ∈ swapped, run w ≠ none → matches' (pattern english w.2) "ab".toList = true :=
  ⟨fun w => if w.1 = 1 ∨ w.1 = 2 then some w.1 else none, by decide +kernel, by decide +kernel, by decide +kernel, by decide +kernel⟩

/-! ### Characters -/

/-- English, the capital schwa, whose small letter is far from it, and the capital dotted i, whose small letter is two characters. -/
def wider : Casing where
  lc c := if c = 'Ə' then ['ə'] else if c = 'İ' then ['i', '̇'] else [c.toLower]
  uc c := if c = 'ə' then ['Ə'] else [c.toUpper]

theorem wider_plain : Plain wider := by
  intro c hc
  have : letters.all fun c => decide (wider.lc c = [c] ∧ wider.uc c = [c.toUpper] ∧ wider.lc c.toUpper = [c]) = true := by decide +kernel
  rw [List.all_eq_true] at this
  have := this c hc
  simp only [decide_eq_true_eq] at this
  exact ⟨this.1, c.toUpper, this.2⟩

/-- A parser of names, which may begin with the characters `ks`, beside four words.  (The characters a name begins with are those of `IDENT_CHAR`,
/repo/sql_parsing/utils.py 30-31, from `À` to `ƿ` among them: with `Ə` (U+018F) and `İ` (U+0130), and without `ə` (U+0259).) -/
def names (ks : List Char) : List (Nat × List Key) := (0, ks.map fun c => [c]) :: others.map fun w => (w.1, [w.2])

def namesTable (ks : List Char) : Except PyErr (List (Key × List (Nat × List Key))) := table ((names ks).map (expectingOf Prod.snd))

/-- **C89 fails: a name that begins with a capital whose small letter begins no name.**  Whatever the parsers do, the choice raises `KeyError`. -/
theorem C89_fails_capital (run : Nat × List Key → Option R) (t : List Char) :
    choose wider run ('Ə' :: t) (faster (expectingOf Prod.snd) (names ['a', 'Ə'])) = .error .keyError := by
  have ht : namesTable ['a', 'Ə'] = .ok [(['a'], [(0, [['a'], ['Ə']])]), (['v'], [(3, [['v']])]), (['w'], [(4, [['w']])]), (['x'], [(5, [['x']])]),
      (['y'], [(6, [['y']])]), (['Ə'], [(0, [['a'], ['Ə']])])] := by decide +kernel
  rw [faster_of_table (by decide) (by decide) ht, choose]
  have hf : ∀ f, f = [(['a'], [(0, [['a'], ['Ə']])]), (['v'], [(3, [['v']])]), (['w'], [(4, [['w']])]), (['x'], [(5, [['x']])]),
      (['y'], [(6, [['y']])]), (['Ə'], [(0, [['a'], ['Ə']])])] → shortList wider f ('Ə' :: t) = .error .keyError := by
    intro f e
    have : found wider f ('Ə' :: t) = some ['Ə'] := by
      subst e
      simp only [found, List.find?_cons]
      rfl
    unfold shortList
    rw [this]
    subst e
    decide +kernel
  unfold Fast.parse
  rw [hf _ rfl]

/-- **C89 fails: a name that begins with the capital dotted i.**  Its small letter is in the table, but `lower` gives two characters. -/
theorem C89_fails_dotted (run : Nat × List Key → Option R) (t : List Char) :
    choose wider run ('İ' :: t) (faster (expectingOf Prod.snd) (names ['i', 'İ'])) = .error .keyError := by
  have ht : namesTable ['i', 'İ'] = .ok [(['i'], [(0, [['i'], ['İ']])]), (['v'], [(3, [['v']])]), (['w'], [(4, [['w']])]), (['x'], [(5, [['x']])]),
      (['y'], [(6, [['y']])]), (['İ'], [(0, [['i'], ['İ']])])] := by decide +kernel
  rw [faster_of_table (by decide) (by decide) ht, choose]
  have hf : ∀ f, f = [(['i'], [(0, [['i'], ['İ']])]), (['v'], [(3, [['v']])]), (['w'], [(4, [['w']])]), (['x'], [(5, [['x']])]),
      (['y'], [(6, [['y']])]), (['İ'], [(0, [['i'], ['İ']])])] → shortList wider f ('İ' :: t) = .error .keyError := by
    intro f e
    have : found wider f ('İ' :: t) = some ['İ'] := by
      subst e
      simp only [found, List.find?_cons]
      rfl
    unfold shortList
    rw [this]
    subst e
    decide +kernel
  unfold Fast.parse
  rw [hf _ rfl]

/-! ### Parsers that need nothing -/

/-- The word `a`, which may be left out (`Optional`, whose `expecting` is the one of the word), and the others. -/
def optional : List Word := (0, "a".toList) :: others

/-- **C89 fails: an alternative that may be left out.**  It succeeds on every text, but is not tried where its word does not stand. -/
theorem C89_fails_optional (run : Word → Option R) (t : List Char) (r : R) (h : run (0, "a".toList) = some r) :
    choose english run ('z' :: t) (faster (expectingOf wordKeys) optional) = .ok none ∧ first run optional = some r := by
  have ht : table (optional.map (expectingOf wordKeys)) = .ok (optional.map fun w => (w.2, [w])) := by decide +kernel
  constructor
  · rw [faster_of_table (by decide) (by intro o _; simp [wordKeys]) ht, choose]
    have : found english (optional.map fun w => (w.2, [w])) ('z' :: t) = none := by
      simp only [found, optional, others, List.map_cons, List.map_nil, List.find?_cons]
      rfl
    unfold Fast.parse shortList
    rw [this]
    rfl
  · simp only [first, optional, List.findSome?_cons, h]

end EulerDB.Choice
