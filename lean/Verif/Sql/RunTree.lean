/-
C70: the tree of a run.  A tree that is grouped by the operator table is what `make_tree` builds from its run.
-/
import Verif.Sql.StmtProps
import Verif.Parse.TreeProps

namespace EulerDB.Sql

open EulerDB EulerDB.Parse

/-- Operands, prefix and infix operators. -/
inductive Rt where
  | val (v : V)
  | un (p : Pre) (e : Rt)
  | bin (o : Bop) (l r : Rt)

/-- The run of a tree. -/
def Rt.run : Rt → List F
  | .val v => [.val v]
  | .un p e => .pre p :: e.run
  | .bin o l r => l.run ++ .bin o :: r.run

/-- The value of a tree, by the parse actions. -/
def Rt.v : Rt → V
  | .val v => v
  | .un p e => unV p e.v
  | .bin o l r => binV (jop o) l.v r.v

/-- Number of operands. -/
def Rt.size : Rt → Nat
  | .val _ => 1
  | .un _ e => e.size
  | .bin _ l r => l.size + r.size

/-- The tree with numbered operands. -/
def Rt.tree : Nat → Rt → T
  | i, .val _ => .atom (strOf (Text.natStr i))
  | i, .un p e => .un p (e.tree i)
  | i, .bin o l r => .bin o (l.tree i) (r.tree (i + l.size))

/-- How late the root of a tree is built. -/
def Rt.lv : Rt → Nat
  | .val _ => 0
  | .un p _ => ix (.pre p) + 1
  | .bin o _ _ => ix (.bin o) + 1

/-- Grouped by the table. -/
def Rt.Grouped : Rt → Prop
  | .val _ => True
  | .un p e => e.Grouped ∧ e.lv ≤ ix (.pre p) + 1
  | .bin o l r => l.Grouped ∧ r.Grouped ∧ l.lv ≤ ix (.bin o) + 1 ∧ r.lv ≤ ix (.bin o)

theorem Rt.tree_lv (i : Nat) (e : Rt) : Parse.lv (e.tree i) = e.lv := by cases e <;> rfl

theorem Rt.Grouped.wl : ∀ {e : Rt}, e.Grouped → ∀ i, WL (e.tree i)
  | .val _, _, _ => trivial
  | .un p e, h, i => ⟨Rt.Grouped.wl h.1 i, by rw [Rt.tree_lv]; exact h.2⟩
  | .bin o l r, h, i => ⟨Rt.Grouped.wl h.1 i, Rt.Grouped.wl h.2.1 _, by rw [Rt.tree_lv]; exact h.2.2.1, by rw [Rt.tree_lv]; exact h.2.2.2⟩

theorem runItems_run : ∀ (e : Rt) (i : Nat) (rest : List F), runItems i (e.run ++ rest) = flat (e.tree i) ++ runItems (i + e.size) rest
  | .val v, i, rest => rfl
  | .un p e, i, rest => by
    rw [Rt.run, List.cons_append, runItems, runItems_run e i rest, Rt.tree, Rt.size]
    rfl
  | .bin o l r, i, rest => by
    rw [Rt.run, List.append_assoc, runItems_run l i, List.cons_append, runItems, runItems_run r _ rest, Rt.tree, Rt.size, Nat.add_assoc]
    simp [flat, cut]

/-- The operands of a tree. -/
def Rt.vals : Rt → List V
  | .val v => [v]
  | .un _ e => e.vals
  | .bin _ l r => l.vals ++ r.vals

theorem runVals_run : ∀ (e : Rt) (rest : List F), runVals (e.run ++ rest) = e.vals ++ runVals rest
  | .val v, rest => rfl
  | .un p e, rest => by rw [Rt.run, List.cons_append, runVals, runVals_run e rest]; rfl; simp
  | .bin o l r, rest => by
    rw [Rt.run, List.append_assoc, runVals_run l, List.cons_append, runVals, runVals_run r rest, Rt.vals, List.append_assoc]
    simp

theorem Rt.vals_length : ∀ e : Rt, e.vals.length = e.size
  | .val _ => rfl
  | .un _ e => e.vals_length
  | .bin _ l r => by rw [Rt.vals, List.length_append, l.vals_length, r.vals_length, Rt.size]

theorem treeV_tree : ∀ (e : Rt) (a b : List V), treeV (a ++ e.vals ++ b) (e.tree a.length) = some e.v
  | .val v, a, b => by
    rw [Rt.tree, treeV]
    simp [strOf, Text.parseNat_natStr, Rt.vals, Rt.v]
  | .un p e, a, b => by
    rw [Rt.tree, treeV, Rt.vals, treeV_tree e a b]
    rfl
  | .bin o l r, a, b => by
    have h1 := treeV_tree l a (r.vals ++ b)
    have h2 := treeV_tree r (a ++ l.vals) b
    rw [List.length_append, l.vals_length] at h2
    rw [Rt.tree, treeV, Rt.vals]
    rw [show a ++ (l.vals ++ r.vals) ++ b = a ++ l.vals ++ (r.vals ++ b) by simp, h1,
      show a ++ l.vals ++ (r.vals ++ b) = a ++ l.vals ++ r.vals ++ b by simp, h2]
    rfl

/-- **C70, precedence:** a tree that is grouped by the operator table is read from its run as it is. -/
theorem C70_bracketed_partial {e : Rt} (h : e.Grouped) : runV e.run = some e.v := by
  have h1 := runItems_run e 0 []
  have h2 := runVals_run e []
  have h3 := treeV_tree e [] []
  simp only [List.append_nil, List.nil_append, runItems, runVals, List.length_nil] at h1 h2 h3
  rw [runV, h1, C60_reads_back (h.wl 0), h2]
  exact h3

/-- `a = -1 AND b = 2 OR c = 3`. -/
example : (Rt.bin .or (.bin .and (.bin .eq (.val (.name "a")) (.un .neg (.val (.int 1)))) (.bin .eq (.val (.name "b")) (.val (.int 2))))
    (.bin .eq (.val (.name "c")) (.val (.int 3)))).Grouped := by
  simp only [Rt.Grouped, Rt.lv]
  decide

end EulerDB.Sql
