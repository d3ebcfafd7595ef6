import Verif.Clause.Json

/-!
# Rewriting conditions and assignments (clause/sql_where.py, clause/sql_set.py)
-/

namespace EulerDB.Clause

open EulerDB EulerDB.Delta

/-- `self.db_meta[table]['columns']`, sql_where.py 13-18: any exception gives None.  An empty dict counts as absent in line 22 but not in
lines 41 and 46. -/
def whereCols (db : Db) (table : Json) : Option (Dict String ColMeta) :=
  match tableOfJson db table with
  | .ok tm => some tm.columns
  | .error _ => none

/-- `col[v[0]]` in lines 23, 41 and 46. -/
def condCol (cols : Option (Dict String ColMeta)) (x : Json) : Except PyErr ColMeta :=
  match cols with
  | none => .error .typeError
  | some d => colOfJson d x

/-- The join path of an equality, sql_where.py 29-38. -/
def joinEq (db : Db) (cipher : String) (a b : Json) : Except PyErr Json :=
  match splitTableCol a with
  | .error e => .error e
  | .ok (t, c) =>
  match splitTableCol b with
  | .error e => .error e
  | .ok (t1, c1) =>
  match tableOf db t with
  | .error e => .error e
  | .ok tm =>
  match Dict.getItem tm.columns c with
  | .error e => .error e
  | .ok cm =>
  match tableOf db t1 with
  | .error e => .error e
  | .ok tm1 =>
  match Dict.getItem tm1.columns c1 with
  | .error e => .error e
  | .ok cm1 =>
  match (if cm.plaintext then .ok c else Dict.getItem cm.encCols cipher) with
  | .error e => .error e
  | .ok n =>
  match (if cm1.plaintext then .ok c1 else Dict.getItem cm1.encCols cipher) with
  | .error e => .error e
  | .ok n1 => .ok (.dict [("eq", .list [.str (tm.anonymous ++ "." ++ n), .str (tm1.anonymous ++ "." ++ n1)])])

/-- A value reached by the recursion, sql_where.py 55-89. -/
def rewriteLeaf (c : Crypto) (cipher key : String) : Json → Except PyErr Json
  | .int z =>
    if cipher = "fuzzy" then (c.like key (intText z)).map .str
    else if cipher = "symmetric" then (c.sym key (intText z)).map .str
    else if cipher = "order-preserving" then (c.opeEnc key z).map .int
    else .ok (.int z)
  | .str s =>
    if cipher = "fuzzy" then (c.like key s).map .str
    else if cipher = "symmetric" then (c.sym key s).map .str
    else .ok (.str s)
  | j => .ok j

mutual
/-- `SQLWhere.rewrite`, sql_where.py 12-89.  (`v` is a list wherever the code indexes or iterates it; the grammar gives no other value
there, and the model raises TypeError.) -/
def whereRw (c : Crypto) (db : Db) (table : Json) (cipher key : String) : Json → Except PyErr Json
  | .dict d => whereDict c db table cipher key d d
  | j => rewriteLeaf c cipher key j

/-- The loop over the items of a dict, sql_where.py 20-54; `all` is the dict itself, returned if no branch returns. -/
def whereDict (c : Crypto) (db : Db) (table : Json) (cipher key : String) (all : List (String × Json)) : List (String × Json) → Except PyErr Json
  | [] => .ok (.dict all)
  | (k, v) :: rest =>
    if k = "eq" then
      match v with
      | .list (a :: b :: _) =>
        match whereCols db table with
        | some (e :: r) =>
          match colOfJson (e :: r) a with
          | .error e => .error e
          | .ok cm =>
            if cm.plaintext then whereDict c db table cipher key all rest
            else
              match Dict.getItem cm.encCols "symmetric" with
              | .error e => .error e
              | .ok n =>
                match whereRw c db table "symmetric" cm.key b with
                | .error e => .error e
                | .ok b' => .ok (.dict [("eq", .list [.str n, b'])])
        | _ => joinEq db cipher a b
      | _ => .error .typeError
    else if k = "gt" ∨ k = "lt" ∨ k = "gte" ∨ k = "lte" then
      match v with
      | .list (a :: b :: _) =>
        match condCol (whereCols db table) a with
        | .error e => .error e
        | .ok cm =>
          if cm.plaintext then whereDict c db table cipher key all rest
          else if cm.type = "int" then
            match Dict.getItem cm.encCols "order-preserving" with
            | .error e => .error e
            | .ok n =>
              match whereRw c db table "order-preserving" cm.key b with
              | .error e => .error e
              | .ok b' => .ok (.dict [(k, .list [.str n, b'])])
          else whereDict c db table cipher key all rest
      | _ => .error .typeError
    else if k = "like" then
      match v with
      | .list (a :: b :: _) =>
        match condCol (whereCols db table) a with
        | .error e => .error e
        | .ok cm =>
          if cm.plaintext then whereDict c db table cipher key all rest
          else
            match Dict.getItem cm.encCols "fuzzy" with
            | .error e => .error e
            | .ok n =>
              match whereRw c db table "fuzzy" cm.key b with
              | .error e => .error e
              | .ok b' => .ok (.dict [("like", .list [.str n, b'])])
      | _ => .error .typeError
    else if k = "and" ∨ k = "or" then
      match v with
      | .list l =>
        match whereList c db table cipher l with
        | .error e => .error e
        | .ok l' => .ok (.dict [(k, .list l')])
      | _ => .error .typeError
    else if k = "literal" then
      match whereRw c db table cipher key v with
      | .error e => .error e
      | .ok v' => .ok (.dict [("literal", v')])
    else whereDict c db table cipher key all rest

/-- The operands of AND and OR, sql_where.py 51-52: the key is not passed on. -/
def whereList (c : Crypto) (db : Db) (table : Json) (cipher : String) : List Json → Except PyErr (List Json)
  | [] => .ok []
  | a :: r =>
    match whereRw c db table cipher "" a with
    | .error e => .error e
    | .ok a' =>
      match whereList c db table cipher r with
      | .error e => .error e
      | .ok r' => .ok (a' :: r')
end

/-- The cipher columns of one assignment, sql_set.py 17-18. -/
def setCols (c : Crypto) (db : Db) (table : String) (key : String) (v : Json) : Dict String String → Dict String Json → Except PyErr (Dict String Json)
  | [], acc => .ok acc
  | (cipher, n) :: r, acc =>
    match whereRw c db (.str table) cipher key v with
    | .error e => .error e
    | .ok v' => setCols c db table key v r (Dict.set acc n v')

/-- The loop over the assignments, sql_set.py 13-18. -/
def setLoop (c : Crypto) (db : Db) (table : String) (cols : Dict String ColMeta) : Dict String Json → Dict String Json → Except PyErr (Dict String Json)
  | [], acc => .ok acc
  | (k, v) :: r, acc =>
    match Dict.getItem cols k with
    | .error e => .error e
    | .ok cm =>
      if cm.plaintext then setLoop c db table cols r (Dict.set acc k v)
      else
        match setCols c db table cm.key v cm.encCols acc with
        | .error e => .error e
        | .ok acc' => setLoop c db table cols r acc'

/-- `SQLSet.rewrite`, sql_set.py 10-19. -/
def setRw (c : Crypto) (db : Db) (table : String) (sets : Dict String Json) : Except PyErr (Dict String Json) :=
  match tableOf db table with
  | .error e => .error e
  | .ok tm => setLoop c db table tm.columns sets []

end EulerDB.Clause
