/-
The statements the proxy writes, as the backend reads them.
-/
import Verif.Whole.Cond

namespace EulerDB.Whole

open EulerDB EulerDB.Clause

/-! ### Pieces -/

instance (w : List Char) : Decidable (Name w) := by unfold Name; infer_instance

theorem Pieces.kw {k : String} (h : Name k.toList) : Pieces [.kw k] [.word k.toList] := .one (cut_word h) (by simp)

theorem Pieces.name {P : Writer} {res : List Char → Bool} {s : String} (h : Bare P res s) : Pieces [.leaf s] [.word s.toList] := .one (cut_word h.name) (by simp)

theorem Pieces.rhs {P : Writer} {r : Rhs} (h : r.Ok P) : Pieces [.leaf (String.ofList r.text)] r.toks :=
  .one (by simpa [Statement.spell.one] using cut_rhs h) (by simp)

theorem Pieces.eq : Pieces [.kw "="] [.cmp .eq] := .one (cut_cmp .eq) (by simp)

theorem Pieces.sep {α : Type} {f : α → List Statement.Tok} {g : α → List MTok} {l : List α} (h : ∀ a ∈ l, Pieces (f a) (g a)) :
    Pieces (Statement.commaSep (l.map f)) (commaToks (l.map g)) := by
  apply Pieces.commaSep
  induction l with
  | nil => exact .nil
  | cons a l ih => exact .cons (h a (by simp)) (ih fun b hb => h b (by simp [hb]))

theorem readStmt_pieces {res : List Char → Bool} {l : List Statement.Tok} {ts : List MTok} (h : Pieces l ts) :
    readStmt res (Statement.spell l).toList = pStmt res ts := by
  rw [readStmt, h.lx.full]; rfl

/-! ### Lists -/

theorem commaToks_cons (w : List MTok) {ws : List (List MTok)} (h : ws ≠ []) : commaToks (w :: ws) = w ++ .comma :: commaToks ws := by
  cases ws with
  | nil => exact absurd rfl h
  | cons v ws => rw [commaToks]; simp

theorem commaToks_length (l : List (List MTok)) : l.length ≤ (commaToks l).length + 1 := by
  induction l with
  | nil => simp
  | cons w ws ih =>
    by_cases h : ws = []
    · subst h; simp
    · rw [commaToks_cons w h]
      simp only [List.length_cons, List.length_append]
      omega

theorem pSep_read {α β : Type} {p : List MTok → Option (β × List MTok)} {f : α → List MTok} {g : α → β} {rest : List MTok} (hr : ∀ r, rest ≠ .comma :: r) :
    ∀ (l : List α) (n : Nat), l ≠ [] → (∀ a ∈ l, ∀ r, p (f a ++ r) = some (g a, r)) → l.length ≤ n + 1 →
      pSep p n (commaToks (l.map f) ++ rest) = some (l.map g, rest)
  | [], _, h, _, _ => absurd rfl h
  | [a], n, _, h, _ => by
    have ha := h a (by simp) rest
    cases n with
    | zero => simp [pSep, commaToks, ha]
    | succ n =>
      rw [pSep]
      simp only [List.map_cons, List.map_nil, commaToks, ha]
  | a :: b :: l, 0, _, _, hn => by simp at hn
  | a :: b :: l, n + 1, _, h, hn => by
    have ih := pSep_read hr (b :: l) n (by simp) (fun x hx => h x (by simp [hx])) (by simpa using hn)
    rw [List.map_cons, commaToks_cons _ (by simp), pSep, List.append_assoc, List.cons_append, h a (by simp)]
    simp only [ih, Option.map_some]
    rfl

/-- The lengths the reader starts with are enough. -/
theorem pSep_full {α β : Type} {p : List MTok → Option (β × List MTok)} {f : α → List MTok} {g : α → β} {rest : List MTok} (hr : ∀ r, rest ≠ .comma :: r)
    {l : List α} (h0 : l ≠ []) (h : ∀ a ∈ l, ∀ r, p (f a ++ r) = some (g a, r)) :
    pSep p (commaToks (l.map f) ++ rest).length (commaToks (l.map f) ++ rest) = some (l.map g, rest) := by
  refine pSep_read hr l _ h0 h ?_
  have := commaToks_length (l.map f)
  simp only [List.length_map] at this
  simp only [List.length_append]
  omega

/-! ### Names and values -/

def Rhs.val : Rhs → DbVal
  | .int z => .int z
  | .lit s => .text s
  | .quoted s => .text s

theorem pLit_rhs (r : Rhs) (rest : List MTok) : pLit (r.toks ++ rest) = some (r.val, rest) := by
  cases r with
  | int z =>
    rw [Rhs.toks, intToks, Rhs.val]
    split
    · rename_i h
      simp only [List.cons_append, List.nil_append, pLit, Option.some.injEq, Prod.mk.injEq, DbVal.int.injEq, and_true]
      omega
    · rename_i h
      simp only [List.cons_append, List.nil_append, pLit, Option.some.injEq, Prod.mk.injEq, DbVal.int.injEq, and_true]
      omega
  | lit s => simp [Rhs.toks, pLit, Rhs.val]
  | quoted s => simp [Rhs.toks, pLit, Rhs.val]

theorem pName_bare {P : Writer} {res : List Char → Bool} {s : String} (h : Bare P res s) (rest : List MTok) :
    pName res ([.word s.toList] ++ rest) = some (s, rest) := by
  simp [pName, h.res]

/-- One assignment. -/
def setToks (e : String × Rhs) : List Statement.Tok := [.leaf e.1, .kw "=", .leaf (String.ofList e.2.text)]
def setMToks (e : String × Rhs) : List MTok := .word e.1.toList :: .cmp .eq :: e.2.toks

theorem Pieces.assign {P : Writer} {res : List Char → Bool} {e : String × Rhs} (h1 : Bare P res e.1) (h2 : e.2.Ok P) : Pieces (setToks e) (setMToks e) := by
  simpa [setToks, setMToks] using (Pieces.name h1).append (Pieces.eq.append (Pieces.rhs h2))

theorem pSet_read {P : Writer} {res : List Char → Bool} {e : String × Rhs} (h : Bare P res e.1) (rest : List MTok) :
    pSet res (setMToks e ++ rest) = some ((e.1, e.2.val), rest) := by
  have h1 := pName_bare h (.cmp .eq :: (e.2.toks ++ rest))
  rw [List.singleton_append] at h1
  rw [pSet, setMToks, List.cons_append, List.cons_append, h1]
  simp only [pLit_rhs, Option.map_some]

/-! ### WHERE -/

def whereToks : Option W → List Statement.Tok
  | none => []
  | some x => [.kw "WHERE", .leaf (String.ofList x.text)]

def whereMToks : Option W → List MTok
  | none => []
  | some x => .word "WHERE".toList :: x.toks

theorem Pieces.where {P : Writer} {res : List Char → Bool} {w : Option W} (h : ∀ x ∈ w, x.Ok P res) : Pieces (whereToks w) (whereMToks w) := by
  cases w with
  | none => exact .nil
  | some x =>
    have h1 := Pieces.one (t := .leaf (String.ofList x.text)) (ts := x.toks) (by simpa [Statement.spell.one] using W.cut x (h x rfl)) (by simp)
    exact (Pieces.kw (k := "WHERE") (by decide)).append h1

theorem pKw_self (k : String) (h : isKw k k.toList = true) (r : List MTok) : pKw k (.word k.toList :: r) = some r := by
  rw [pKw, if_pos h]

theorem pWhere_read {P : Writer} {res : List Char → Bool} {w : Option W} (h : ∀ x ∈ w, x.Ok P res) : pWhere res (whereMToks w) = some (w.map W.ex) := by
  cases w with
  | none => rfl
  | some x =>
    rw [whereMToks, pWhere, pKw_self "WHERE" (by decide)]
    · simp only [W.read x (h x rfl), Option.map_some]
    · simp

theorem where_comma (w : Option W) (r : List MTok) : whereMToks w ≠ .comma :: r := by cases w <;> simp [whereMToks]

/-! ### The statements -/

/-- `DELETE FROM t WHERE …`. -/
def deleteText (t : String) (w : Option W) : List Statement.Tok := .kw "DELETE" :: .kw "FROM" :: .leaf t :: whereToks w

theorem read_delete {P : Writer} {res : List Char → Bool} {t : String} {w : Option W} (ht : Bare P res t) (hw : ∀ x ∈ w, x.Ok P res) :
    readStmt res (Statement.spell (deleteText t w)).toList = some (.delete t (w.map W.ex)) := by
  have h := (Pieces.kw (k := "DELETE") (by decide)).append ((Pieces.kw (k := "FROM") (by decide)).append ((Pieces.name ht).append (Pieces.where hw)))
  rw [deleteText]
  refine (readStmt_pieces h).trans ?_
  have h1 := pName_bare ht (whereMToks w)
  rw [List.singleton_append] at h1
  simp only [List.singleton_append]
  rw [pStmt, if_neg (by decide), if_neg (by decide), if_neg (by decide), if_pos (by decide), pDelete, pKw_self "FROM" (by decide)]
  simp only [Option.bind_eq_bind, Option.bind_some, h1, pWhere_read hw]

/-- `SELECT n, … FROM t WHERE …`. -/
def selectText (ns : List String) (t : String) (w : Option W) : List Statement.Tok :=
  .kw "SELECT" :: (Statement.commaSep (ns.map fun s => [.leaf s]) ++ .kw "FROM" :: .leaf t :: whereToks w)

theorem read_select {P : Writer} {res : List Char → Bool} {ns : List String} {t : String} {w : Option W} (h0 : ns ≠ []) (hn : ∀ n ∈ ns, Bare P res n)
    (ht : Bare P res t) (hw : ∀ x ∈ w, x.Ok P res) :
    readStmt res (Statement.spell (selectText ns t w)).toList = some (.select ns t (w.map W.ex)) := by
  have h := (Pieces.kw (k := "SELECT") (by decide)).append ((Pieces.sep (f := fun s => [.leaf s]) (g := fun s => [.word s.toList]) (l := ns)
    fun n hn' => Pieces.name (hn n hn')).append ((Pieces.kw (k := "FROM") (by decide)).append ((Pieces.name ht).append (Pieces.where hw))))
  rw [selectText]
  refine (readStmt_pieces (by simpa using h)).trans ?_
  have h1 := pName_bare ht (whereMToks w)
  rw [List.singleton_append] at h1
  have h2 := pSep_full (p := pName res) (f := fun s => [.word s.toList]) (g := id) (rest := .word "FROM".toList :: .word t.toList :: whereMToks w) (by simp) h0
    (fun n hn' r => pName_bare (hn n hn') r)
  rw [pStmt, if_neg (by decide), if_pos (by decide), pSelect]
  simp only [Option.bind_eq_bind]
  erw [h2]
  simp only [Option.bind_some, pKw_self "FROM" (by decide), h1, pWhere_read hw, List.map_id]

/-- `UPDATE t SET … WHERE …`. -/
def updateText (t : String) (l : List (String × Rhs)) (w : Option W) : List Statement.Tok :=
  .kw "UPDATE" :: .leaf t :: .kw "SET" :: (Statement.commaSep (l.map setToks) ++ whereToks w)

theorem read_update {P : Writer} {res : List Char → Bool} {l : List (String × Rhs)} {t : String} {w : Option W} (h0 : l ≠ []) (hn : ∀ e ∈ l, Bare P res e.1)
    (hr : ∀ e ∈ l, e.2.Ok P) (ht : Bare P res t) (hw : ∀ x ∈ w, x.Ok P res) :
    readStmt res (Statement.spell (updateText t l w)).toList = some (.update t (l.map fun e => (e.1, e.2.val)) (w.map W.ex)) := by
  have h := (Pieces.kw (k := "UPDATE") (by decide)).append ((Pieces.name ht).append ((Pieces.kw (k := "SET") (by decide)).append
    ((Pieces.sep (l := l) fun e he => Pieces.assign (hn e he) (hr e he)).append (Pieces.where hw))))
  rw [updateText]
  refine (readStmt_pieces (by simpa using h)).trans ?_
  have h1 := pName_bare ht (.word "SET".toList :: (commaToks (l.map setMToks) ++ whereMToks w))
  rw [List.singleton_append] at h1
  have h2 := pSep_full (p := pSet res) (f := setMToks) (g := fun e => (e.1, e.2.val)) (rest := whereMToks w) (where_comma w) h0
    (fun e he r => pSet_read (hn e he) r)
  rw [pStmt, if_neg (by decide), if_neg (by decide), if_pos (by decide), pUpdate]
  simp only [Option.bind_eq_bind]
  erw [h1]
  simp only [Option.bind_some]
  erw [pKw_self "SET" (by decide)]
  simp only [Option.bind_some, h2, pWhere_read hw]

theorem read_insert {P : Writer} {res : List Char → Bool} {ns : List String} {vs : List Rhs} {t : String} (h0 : ns ≠ []) (h1 : vs ≠ [])
    (hn : ∀ n ∈ ns, Bare P res n) (hv : ∀ r ∈ vs, r.Ok P) (ht : Bare P res t) :
    readStmt res (Statement.spell (Statement.oneRow t ns (vs.map fun r => String.ofList r.text))).toList = some (.insert t ns (vs.map Rhs.val)) := by
  have h := (Pieces.kw (k := "INSERT") (by decide)).append ((Pieces.kw (k := "INTO") (by decide)).append ((Pieces.name ht).append
    ((Pieces.sep (f := fun s => [.leaf s]) (g := fun s => [.word s.toList]) (l := ns) fun n hn' => Pieces.name (hn n hn')).parens.append
    ((Pieces.kw (k := "VALUES") (by decide)).append
      (Pieces.sep (f := fun r : Rhs => [.leaf (String.ofList r.text)]) (g := Rhs.toks) (l := vs) fun r hr => Pieces.rhs (hv r hr)).parens))))
  rw [Statement.oneRow]
  refine (readStmt_pieces (by simpa [List.map_map, Function.comp_def] using h)).trans ?_
  have e1 := pName_bare ht (.lp :: (commaToks (ns.map fun s => [.word s.toList]) ++ .rp :: .word "VALUES".toList :: .lp :: (commaToks (vs.map Rhs.toks) ++ [.rp])))
  rw [List.singleton_append] at e1
  have e2 := pSep_full (p := pName res) (f := fun s => [.word s.toList]) (g := id)
    (rest := .rp :: .word "VALUES".toList :: .lp :: (commaToks (vs.map Rhs.toks) ++ [.rp])) (by simp) h0 (fun n hn' r => pName_bare (hn n hn') r)
  have e3 := pSep_full (p := pLit) (f := Rhs.toks) (g := Rhs.val) (rest := [.rp]) (by simp) h1 (fun e _ r => pLit_rhs e r)
  rw [pStmt, if_pos (by decide), pInsert]
  simp only [Option.bind_eq_bind]
  erw [pKw_self "INTO" (by decide)]
  simp only [Option.bind_some]
  erw [e1]
  simp only [Option.bind_some]
  erw [e2]
  simp only [Option.bind_some]
  erw [pKw_self "VALUES" (by decide)]
  simp only [Option.bind_some, e3, List.map_id]

end EulerDB.Whole
