/-
Model of how the SQL parser turns a flat run of operands and operators into an
expression tree.

Code:
  * /repo/parsing/infix.py `infix_notation` 157-374: `make_tree` 258-366 (prefix
    operators 265-282, infix operators 301-327, `BETWEEN .. AND` 329-355, replacing the
    matched part 359-361, result 363-366), grammar of the flat run 368-372;
  * /repo/sql_parsing/sql_parser.py 317-353: the operator list handed over;
  * /repo/sql_parsing/keywords.py `KNOWN_OPS` 294-322; /repo/sql_parsing/types.py
    `unary_ops` 148-153 (`-`, `NOT`, `~` are prefix operators).

Simplifications:
  * the suffix operators `[i]`, `.name`, windows and filters (sql_parser.py 323-342),
    which come before all others, are part of their operand;
  * a parenthesised expression is one operand, as it is for `make_tree` (369-370),
    which is called for the inside separately;
  * positions, parse failures and the parse actions are left out; the action
    `to_json_operator` is modelled in `Verif/Parse/Action.lean` (actions do not
    influence which part is reduced next: the match is on the operator alone).
-/
namespace EulerDB.Parse

/-- Infix operators of `KNOWN_OPS` (keywords.py 295-321). -/
inductive Bop
  | collate | concat | mul | div | mod | add | sub | band | bor
  | gte | lte | lt | gt | eq | neq | deq | idf | indf
  | atz | isin | nin | isNot | is
  | like | notLike | rlike | notRlike | similar | notSimilar
  | and | or | lambda
  deriving DecidableEq, Repr

/-- Prefix operators (types.py 148-151). -/
inductive Pre
  | neg | bnot | knot
  deriving DecidableEq, Repr

/-- Expression trees.  `bopTok`, `preTok` and `btwTok` are operator tokens that ended
up in the place of an operand. -/
inductive T
  | atom (s : String)
  | bin (o : Bop) (l r : T)
  | un (p : Pre) (e : T)
  | btw (neg : Bool) (a b c : T)
  | bopTok (o : Bop)
  | preTok (p : Pre)
  | btwTok (neg : Bool)
  deriving DecidableEq, Repr

/-- An element of `flat_tokens`. -/
inductive Item
  | val (t : T)
  | bin (o : Bop)
  | pre (p : Pre)
  | btw (neg : Bool)
  deriving DecidableEq, Repr

/-- `flat_tokens[i][0]`: the parse result, whatever it is. -/
def Item.tree : Item → T
  | .val t => t
  | .bin o => .bopTok o
  | .pre p => .preTok p
  | .btw n => .btwTok n

/-- One entry of the operator list: arity and operators (sql_parser.py 343-351). -/
inductive Lev
  | bin (os : List Bop)
  | pre (p : Pre)
  | btw (neg : Bool)
  deriving DecidableEq, Repr

/-- keywords.py 294-322. -/
def table : List Lev :=
  [ .bin [.collate], .bin [.concat], .bin [.mul, .div, .mod], .pre .neg, .bin [.add, .sub],
    .pre .bnot, .bin [.band], .bin [.bor], .bin [.gte, .lte, .lt, .gt],
    .bin [.eq, .neq, .deq, .idf, .indf], .bin [.atz], .btw false, .btw true,
    .bin [.isin], .bin [.nin], .bin [.isNot], .bin [.is], .bin [.like], .bin [.notLike],
    .bin [.rlike], .bin [.notRlike], .bin [.similar], .bin [.notSimilar],
    .pre .knot, .bin [.and], .bin [.or], .bin [.lambda] ]

/-- infix.py 301-327: the first operator of the entry that is neither the first nor
the last element is applied to its neighbours. -/
def redBin (os : List Bop) : List Item → Option (List Item)
  | x :: .bin o :: y :: r =>
    if o ∈ os then some (.val (.bin o x.tree y.tree) :: r)
    else (redBin os (.bin o :: y :: r)).map (x :: ·)
  | x :: k :: y :: r => (redBin os (k :: y :: r)).map (x :: ·)
  | _ => none

/-- infix.py 265-282: the last such prefix operator that is not the last element is
applied to the element after it. -/
def redPre (p : Pre) : List Item → Option (List Item)
  | x :: y :: r =>
    match redPre p (y :: r) with
    | some r' => some (x :: r')
    | none => if x = .pre p then some (.val (.un p y.tree) :: r) else none
  | _ => none

/-- infix.py 329-355: the first `BETWEEN` with an `AND` two places further. -/
def redBtw (n : Bool) : List Item → Option (List Item)
  | x :: k :: y :: a :: z :: r =>
    if k = .btw n ∧ a = .bin .and then some (.val (.btw n x.tree y.tree z.tree) :: r)
    else (redBtw n (k :: y :: a :: z :: r)).map (x :: ·)
  | _ => none

def red : Lev → List Item → Option (List Item)
  | .bin os => redBin os
  | .pre p => redPre p
  | .btw n => redBtw n

/-- One round of the loop 262-361: the first entry that applies is used, and the
search starts again at the first entry. -/
def step (t : List Item) : Option (List Item) :=
  table.findSome? fun l => red l t

/-- The loop; every round shortens the list, so `t.length` rounds are enough
(`iter_stuck`). -/
def iter : Nat → List Item → List Item
  | 0, t => t
  | n + 1, t =>
    match step t with
    | none => t
    | some t' => iter n t'

/-- `make_tree`: the first element of what is left (363). -/
def makeTree (t : List Item) : Option T :=
  (iter t.length t).head?.map Item.tree

/-! ### The loop ends because nothing applies any more -/

theorem redBin_length (os : List Bop) : ∀ t t', redBin os t = some t' → t'.length < t.length
  | [], t', h => by simp [redBin] at h
  | [_], t', h => by simp [redBin] at h
  | [_, _], t', h => by simp [redBin] at h
  | x :: k :: y :: r, t', h => by
    have ih := redBin_length os (k :: y :: r)
    have key : ∀ z, (redBin os (k :: y :: r)).map (x :: ·) = some z →
        z.length < (x :: k :: y :: r).length := by
      intro z hz
      cases hr : redBin os (k :: y :: r) with
      | none => simp [hr] at hz
      | some w =>
        simp only [hr, Option.map_some, Option.some.injEq] at hz
        have := ih w hr
        subst hz
        simp only [List.length_cons] at this ⊢
        omega
    cases k with
    | bin o =>
      simp only [redBin] at h
      split at h
      · injection h with h; subst h; simp only [List.length_cons]; omega
      · exact key _ h
    | val v => exact key _ (by simpa [redBin] using h)
    | pre v => exact key _ (by simpa [redBin] using h)
    | btw v => exact key _ (by simpa [redBin] using h)

theorem redPre_length (p : Pre) : ∀ t t', redPre p t = some t' → t'.length < t.length
  | [], t', h => by simp [redPre] at h
  | [_], t', h => by simp [redPre] at h
  | x :: y :: r, t', h => by
    have ih := redPre_length p (y :: r)
    simp only [redPre] at h
    split at h
    · rename_i r' hr
      have := ih r' hr
      injection h with h; subst h
      simp only [List.length_cons] at this ⊢; omega
    · split at h
      · injection h with h; subst h; simp
      · cases h

theorem redBtw_length (n : Bool) : ∀ t t', redBtw n t = some t' → t'.length < t.length
  | [], t', h => by simp [redBtw] at h
  | [_], t', h => by simp [redBtw] at h
  | [_, _], t', h => by simp [redBtw] at h
  | [_, _, _], t', h => by simp [redBtw] at h
  | [_, _, _, _], t', h => by simp [redBtw] at h
  | x :: k :: y :: a :: z :: r, t', h => by
    have ih := redBtw_length n (k :: y :: a :: z :: r)
    simp only [redBtw] at h
    split at h
    · injection h with h; subst h; simp only [List.length_cons]; omega
    · cases hr : redBtw n (k :: y :: a :: z :: r) with
      | none => simp [hr] at h
      | some w =>
        simp only [hr, Option.map_some, Option.some.injEq] at h
        have := ih w hr
        subst h
        simp only [List.length_cons] at this ⊢
        omega

theorem red_length (l : Lev) (t t' : List Item) (h : red l t = some t') :
    t'.length < t.length := by
  cases l with
  | bin os => exact redBin_length os t t' h
  | pre p => exact redPre_length p t t' h
  | btw n => exact redBtw_length n t t' h

theorem step_red {t t' : List Item} (h : step t = some t') : ∃ l ∈ table, red l t = some t' := by
  obtain ⟨l, hl, h⟩ := List.exists_of_findSome?_eq_some h
  exact ⟨l, hl, h⟩

theorem step_length {t t' : List Item} (h : step t = some t') : t'.length < t.length := by
  obtain ⟨l, -, h⟩ := step_red h
  exact red_length l t t' h

/-- `Reach t t'`: some rounds of the loop lead from `t` to `t'`. -/
inductive Reach : List Item → List Item → Prop
  | refl (t) : Reach t t
  | head {t u v} : step t = some u → Reach u v → Reach t v

theorem Reach.trans {t u v : List Item} (h : Reach t u) (h' : Reach u v) : Reach t v := by
  induction h with
  | refl => exact h'
  | head hs _ ih => exact .head hs (ih h')

theorem iter_stuck : ∀ n t, t.length ≤ n → step (iter n t) = none
  | 0, t, h => by
    have : t = [] := List.eq_nil_of_length_eq_zero (by omega)
    subst this
    decide
  | n + 1, t, h => by
    unfold iter
    split
    · assumption
    · rename_i t' hs
      have := step_length hs
      exact iter_stuck n t' (by omega)

theorem iter_of_reach {t u : List Item} (h : Reach t u) (hu : step u = none) :
    ∀ n, t.length ≤ n → iter n t = u := by
  induction h with
  | refl t =>
    intro n _
    cases n with
    | zero => rfl
    | succ n => simp [iter, hu]
  | head hs _ ih =>
    intro n hn
    have := step_length hs
    cases n with
    | zero => omega
    | succ n => simp only [iter, hs]; exact ih hu n (by omega)

theorem reach_iter : ∀ n t, Reach t (iter n t)
  | 0, t => .refl t
  | n + 1, t => by
    unfold iter
    split
    · exact .refl t
    · rename_i t' hs
      exact .head hs (reach_iter n t')

theorem makeTree_of_reach {t : List Item} {e : T} (h : Reach t [.val e]) :
    makeTree t = some e := by
  have : step [.val e] = none := by
    simp [step, table, List.findSome?, red, redBin, redPre, redBtw]
  simp [makeTree, iter_of_reach h this t.length (Nat.le_refl _), Item.tree]

end EulerDB.Parse
