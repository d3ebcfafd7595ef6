/-
How the eight statements are spelled (trusted: MySQL's lexical rules for them), and which of the
expressions match such a text.
-/
import Verif.Alter.Lemmas

namespace EulerDB.Alter

open EulerDB EulerDB.Clause

/-! ### Spelling -/

/-- The statements that `parse_alter_key` knows, with one column. -/
inductive Stmt where
  | addPrimary (t c : List Char)
  | dropPrimary (t : List Char)
  | addForeign (t n c u d : List Char)
  | dropForeign (t n : List Char)
  | addIndex (t n c : List Char)
  | addFulltext (t n c : List Char)
  | addUnique (t n c : List Char)
  | dropIndex (t n : List Char)
  deriving DecidableEq, Repr

/-- The words and marks of a statement. -/
inductive Item where
  | kw (w : List Char)
  | id (n : List Char)
  | table (n : List Char)
  | mark (c : Char)

def colItems (c : List Char) : List Item := [.mark '(', .id c, .mark ')']

def Stmt.items : Stmt → List Item
  | .addPrimary t c => [.kw "alter".toList, .kw "table".toList, .table t, .kw "add".toList, .kw "primary".toList, .kw "key".toList] ++ colItems c
  | .dropPrimary t => [.kw "alter".toList, .kw "table".toList, .table t, .kw "drop".toList, .kw "primary".toList, .kw "key".toList]
  | .addForeign t n c u d =>
    [.kw "alter".toList, .kw "table".toList, .table t, .kw "add".toList, .kw "constraint".toList, .id n, .kw "foreign".toList, .kw "key".toList] ++ colItems c ++
      [.kw "references".toList, .id u] ++ colItems d
  | .dropForeign t n => [.kw "alter".toList, .kw "table".toList, .table t, .kw "drop".toList, .kw "foreign".toList, .kw "key".toList, .id n]
  | .addIndex t n c => [.kw "alter".toList, .kw "table".toList, .table t, .kw "add".toList, .kw "index".toList, .id n] ++ colItems c
  | .addFulltext t n c => [.kw "alter".toList, .kw "table".toList, .table t, .kw "add".toList, .kw "fulltext".toList, .id n] ++ colItems c
  | .addUnique t n c => [.kw "alter".toList, .kw "table".toList, .table t, .kw "add".toList, .kw "unique".toList, .id n] ++ colItems c
  | .dropIndex t n => [.kw "alter".toList, .kw "table".toList, .table t, .kw "drop".toList, .kw "index".toList, .id n]

/-- An unquoted name: not empty, of word characters. -/
def IsName (uni : Char → Bool) (n : List Char) : Prop := n ≠ [] ∧ ∀ c ∈ n, isWord uni c = true

/-- `text` spells the items: keywords in any case, blanks anywhere between, at least one between two words (`w`: the item before
ends with a word character), the table perhaps in backticks, a semicolon perhaps at the end. -/
def Spells (uni : Char → Bool) : Bool → List Item → List Char → Prop
  | _, [], text => ∃ b, (∀ c ∈ b, isWs c = true) ∧ (text = b ∨ text = b ++ [';'])
  | w, .kw k :: is, text => ∃ b u r, text = b ++ (u ++ r) ∧ (∀ c ∈ b, isWs c = true) ∧ (w = true → b ≠ []) ∧ u.map Char.toLower = k ∧ Spells uni true is r
  | w, .id n :: is, text => ∃ b r, text = b ++ (n ++ r) ∧ (∀ c ∈ b, isWs c = true) ∧ (w = true → b ≠ []) ∧ IsName uni n ∧ Spells uni true is r
  | w, .table n :: is, text => ∃ b r, (∀ c ∈ b, isWs c = true) ∧ IsName uni n ∧
      ((text = b ++ (n ++ r) ∧ (w = true → b ≠ []) ∧ Spells uni true is r) ∨ (text = b ++ ('`' :: n ++ '`' :: r) ∧ Spells uni false is r))
  | _, .mark c :: is, text => ∃ b r, text = b ++ c :: r ∧ (∀ c ∈ b, isWs c = true) ∧ Spells uni false is r

/-! ### Facts about characters -/

theorem ws_facts {c : Char} (h : isWs c = true) : c = ' ' ∨ c = '\t' ∨ c = '\n' ∨ c = '\r' := by
  simpa [isWs, or_assoc] using h

theorem ws_not_word (uni : Char → Bool) {c : Char} (h : isWs c = true) : isWord uni c = false := by
  rcases ws_facts h with rfl | rfl | rfl | rfl <;> rfl

theorem ws_toLower {c : Char} (h : isWs c = true) : c.toLower = c := by
  rcases ws_facts h with rfl | rfl | rfl | rfl <;> rfl

/-- A lower-case ASCII word. -/
def Low (w : List Char) : Prop := ∀ c ∈ w, c.isLower = true

theorem lower_alpha (c : Char) (h : c.toLower.isLower = true) : c.isAlphanum = true := by
  simp only [Char.isAlphanum, Char.isAlpha]
  by_cases hu : c.isUpper = true
  · simp [hu]
  · have : c.toLower = c := by
      simp only [Char.toLower]
      have hu' : ¬ (c.val ≥ 65 ∧ c.val ≤ 90) := by
        simpa [Char.isUpper] using hu
      split
      · next h' => exact absurd ⟨h'.1, h'.2⟩ hu'
      · rfl
    rw [this] at h
    simp [h]

theorem kw_word (uni : Char → Bool) {u w : List Char} (hw : Low w) (hu : u.map Char.toLower = w) : ∀ c ∈ u, isWord uni c = true := by
  intro c hc
  have : c.toLower.isLower = true := hw _ (hu ▸ List.mem_map_of_mem hc)
  simp [isWord, lower_alpha c this]

theorem word_not_ws {uni : Char → Bool} {c : Char} (h : isWord uni c = true) : isWs c = false := by
  cases hc : isWs c with
  | false => rfl
  | true => rw [ws_not_word uni hc] at h; simp at h

theorem atEnd_mem {s : List Char} (h : atEnd s = true) : ∀ c ∈ s, c = '\n' ∨ c = ';' := by
  simp only [atEnd, Bool.or_eq_true, beq_iff_eq] at h
  rcases h with ((rfl | rfl) | rfl) | rfl <;> simp

theorem spells_end (uni : Char → Bool) {w : Bool} {s : List Char} (h : Spells uni w [] s) : ∃ b r, s = b ++ r ∧ (∀ c ∈ b, isWs c = true) ∧ atEnd r = true ∧ (r = [] ∨ r = [';']) := by
  obtain ⟨b, hb, rfl | rfl⟩ := h
  · exact ⟨s, [], by simp, hb, rfl, .inl rfl⟩
  · exact ⟨b, [';'], rfl, hb, rfl, .inr rfl⟩

end EulerDB.Alter
