/-
C64 at the proxy: an ALTER TABLE that is recognised is what the proxy goes on with; any other is refused.
-/
import Verif.Whole.Send
import Verif.Alter.Props
import Verif.Sql.StmtProps

namespace EulerDB.Whole

open EulerDB

/-- **C64, at the proxy** (rewrite_hander.py 27-28): the parsed statement is the one that the text spells. -/
theorem C64_proxy_partial (P : Proxy) (s : Alter.Stmt) (text : List Char) (h : Alter.Spells P.w.uni false s.items text) : P.parsed text = .ok s.json := by
  rw [Proxy.parsed, Alter.C64_recognised_partial s text h]
  cases s <;> rfl

/-- The SQL parser knows no ALTER TABLE. -/
theorem alter_rejected (env : Sql.Env) (space : Char → Bool) {sql s r : List Char} (ht : Sql.Trimmed space sql s) (h : Sql.Kw "alter" s r) :
    Sql.parse env space sql = .rejected := by
  have hd : Sql.kw "delete" s = none := by
    have := h.other (by decide) (by decide) (no := ["delete"]) (by decide)
    simpa [Sql.anyKw] using this
  rw [Sql.parse, ht.strip, Sql.statement, h.other (by decide) (by decide) (by decide), h.lit (by decide) (by decide) "(" (d := '(') (l := []) rfl (by decide),
    h.other (by decide) (by decide) (by decide), h.other (by decide) (by decide) (by decide), h.other (by decide) (by decide) (by decide)]
  simp only [Option.isSome_none, Bool.or_self, Bool.false_eq_true, if_false]
  rw [Sql.deleteStmt, hd]

/-- **C64 fails, at the proxy**: an ALTER TABLE that is not recognised (two clauses, text after a semicolon, names in backticks: the theorems of Alter/Props.lean) is an
error. -/
theorem C64_fails_proxy (P : Proxy) {sql s r : List Char} (ht : Sql.Trimmed P.space sql s) (h : Sql.Kw "alter" s r) (hn : Alter.parseAlter P.w.uni sql = []) :
    P.parsed sql = .error .generic := by
  rw [Proxy.parsed, hn, alter_rejected P.env P.space ht h]

/-- Two columns dropped at once. -/
example (P : Proxy) (h1 : P.space ';' = false) (h2 : P.space 'b' = false) : P.parsed "ALTER TABLE t DROP COLUMN a, DROP COLUMN b".toList = .error .generic :=
  C64_fails_proxy P (s := "ALTER TABLE t DROP COLUMN a, DROP COLUMN b".toList) (r := " TABLE t DROP COLUMN a, DROP COLUMN b".toList)
    ⟨fun c hc => by
      have : ("ALTER TABLE t DROP COLUMN a, DROP COLUMN b".toList).getLast? = some 'b' := by decide
      rw [this] at hc
      injection hc with hc
      subst hc
      exact ⟨h2, by decide⟩, h1, [], [], by simp, by simp, by simp⟩
    ⟨[], "ALTER".toList, .nil, rfl, by decide, rfl⟩ (Alter.C64_fails_two_columns _ (by decide))

end EulerDB.Whole
