import Verif.Py

/-!
# The results of the parsing library

Transcribed from /repo/parsing/results.py: `ParseResults` 23-336 (`_get_item_by_name` 43-58, `__getitem__` 60-78, `__setitem__` 80-106, `__bool__` 136-151, `__iter__` 155-164,
`__delitem__` 166-170, `keys` and `items` 187-206, `__contains__` 220-223, `as_list` 276-315), `ForwardResults` 339-362, `_flatten` 365-378, `add` 381-390, `Annotation` 393-411.

Simplifications. A value that is no result is a number together with its truth value in Python. Of the type of a result, its name (the empty text for none) and whether it is a `Group`
are kept; of a result's position and failures nothing. `NO_RESULTS` is a plain result without tokens. What `__getitem__` returns is given as the list of the values found: `NO_RESULTS`
for none, the value for one, a plain result of them for several. `__setitem__` returns the changed result; the result that a new value replaces is not looked at further.
-/

namespace EulerDB.Results

inductive Kind where
  | plain
  | group
  /-- `ForwardResults`: one token, whose type is the type -/
  | fwd
  /-- `Annotation` -/
  | ann
  deriving DecidableEq, Repr

mutual
inductive T where
  | val (v : Nat) (true? : Bool)
  | res (k : Kind) (name : String) (ts : Ts)
inductive Ts where
  | nil
  | cons (t : T) (ts : Ts)
end

def Ts.append : Ts → Ts → Ts
  | .nil, u => u
  | .cons t ts, u => .cons t (ts.append u)

def ofList : List T → Ts
  | [] => .nil
  | t :: l => .cons t (ofList l)

/-- `NO_RESULTS` -/
def none' : T := .res .plain "" .nil

mutual
/-- `isinstance(tok.type, Group)` -/
def T.isGroup : T → Bool
  | .val _ _ => false
  | .res .group _ _ => true
  | .res .fwd _ ts => ts.headGroup
  | .res _ _ _ => false
def Ts.headGroup : Ts → Bool
  | .nil => false
  | .cons t _ => t.isGroup
end

def T.name : T → String
  | .val _ _ => ""
  | .res _ n _ => n

mutual
/-- `_flatten` -/
def T.flatten : T → List T
  | .val v b => [.val v b]
  | .res k n ts => if (T.res k n ts).isGroup || n != "" then [.res k n ts] else ts.flatten
/-- `_flatten` of each token -/
def Ts.flatten : Ts → List T
  | .nil => []
  | .cons t ts => t.flatten ++ ts.flatten
end

mutual
/-- `_get_item_by_name`: what one token gives. -/
def T.named (n : String) : T → List T
  | .val _ _ => []
  | .res k m ts =>
    if m = n then (if (T.res k m ts).isGroup then [.res k m ts] else ts.flatten)
    else if m != "" || (T.res k m ts).isGroup then []
    else ts.named n
def Ts.named (n : String) : Ts → List T
  | .nil => []
  | .cons t ts => t.named n ++ ts.named n
end

mutual
/-- `self[name]`; a `ForwardResults` asks its token. -/
def T.get (n : String) : T → List T
  | .val _ _ => []
  | .res .fwd _ ts => ts.headGet n
  | .res _ _ ts => ts.named n
def Ts.headGet (n : String) : Ts → List T
  | .nil => []
  | .cons t _ => t.get n
end

mutual
/-- `__bool__` of a result, Python's truth value of any other value. -/
def T.truthy : T → Bool
  | .val _ b => b
  | .res .fwd _ ts => ts.headTruthy
  | .res _ _ ts => ts.truthy
def Ts.headTruthy : Ts → Bool
  | .nil => false
  | .cons t _ => t.truthy
/-- 136-151: a value that is no result counts, whatever its own truth value. -/
def Ts.truthy : Ts → Bool
  | .nil => false
  | .cons t ts => t.counts || ts.truthy
def T.counts : T → Bool
  | .val _ _ => true
  | .res .fwd n ts => n != "" || ts.headGroup || ts.headTruthy
  | .res k n ts => n != "" || decide (k = .group) || ts.truthy
end

/-- `name in result`: the truth value of `result[name]`. -/
def T.contains (n : String) (t : T) : Bool :=
  match t.get n with
  | [] => false
  | [v] => v.truthy
  | l => (ofList l).truthy

mutual
/-- `__iter__` -/
def T.iter : T → List T
  | .val _ _ => []
  | .res .fwd _ ts => ts.headIter
  | .res _ _ ts => ts.iter
def Ts.headIter : Ts → List T
  | .nil => []
  | .cons t _ => t.iter
def Ts.iter : Ts → List T
  | .nil => []
  | .cons t ts => t.yield ++ ts.iter
/-- What a token adds to the iteration over the result it is in. -/
def T.yield : T → List T
  | .val v b => [.val v b]
  | .res .ann _ _ => []
  | .res .group n ts => [.res .group n ts]
  | .res .fwd n ts => if ts.headGroup then [.res .fwd n ts] else ts.headIter
  | .res .plain _ ts => ts.iter
end

/-- `self[i]` for an integer: there is no `__len__`, so a negative index raises; one that is too large gives None. -/
def T.index (t : T) (i : Int) : Except PyErr (Option T) :=
  if i < 0 then .error .typeError else .ok t.iter[i.toNat]?

mutual
/-- `items`: the pairs in order, a name once for each token that has it (`add` collects them under the name). -/
def T.items : T → List (String × T)
  | .val _ _ => []
  | .res .fwd _ ts => ts.headItems
  | .res _ _ ts => ts.items
def Ts.headItems : Ts → List (String × T)
  | .nil => []
  | .cons t _ => t.items
def Ts.items : Ts → List (String × T)
  | .nil => []
  | .cons t ts => t.pairs ++ ts.items
def T.pairs : T → List (String × T)
  | .val _ _ => []
  | .res k n ts =>
    if n != "" then [(n, .res k n ts)]
    else if (T.res k n ts).isGroup then []
    else if k = .fwd then ts.headItems else ts.items
end

def T.keys (t : T) : List String := t.items.map (·.1)

mutual
/-- `tok.__setitem__(k, NO_RESULTS)` -/
def T.erase (n : String) : T → T
  | .val v b => .val v b
  | .res .fwd m ts => .res .fwd m (ts.headErase n)
  | .res k m ts => .res k m (ts.erase n)
def Ts.headErase (n : String) : Ts → Ts
  | .nil => .nil
  | .cons t ts => .cons (t.erase n) ts
def Ts.erase (n : String) : Ts → Ts
  | .nil => .nil
  | .cons t ts => .cons (t.eraseIn n) (ts.erase n)
def T.eraseIn (n : String) : T → T
  | .val v b => .val v b
  | .res k m ts =>
    if m = n then none'
    else if (T.res k m ts).isGroup || m != "" then .res k m ts
    else if k = .fwd then .res k m (ts.headErase n) else .res k m (ts.erase n)
end

/-- The loop of `__setitem__`: the value goes where the name is found first, `none` when it has been placed. -/
def Ts.put (n : String) (v : T) : Ts → Ts × Bool
  | .nil => (.nil, false)
  | .cons t ts =>
    match t with
    | .val a b => ((.cons (.val a b) (Ts.put n v ts).1), (Ts.put n v ts).2)
    | .res k m us =>
      if m = n then (.cons v (ts.erase n), true)
      else (.cons ((T.res k m us).eraseIn n) (Ts.put n v ts).1, (Ts.put n v ts).2)

/-- The tokens of the annotation that is appended. -/
def annTokens : T → Ts
  | .val v b => .cons (.val v b) .nil
  | .res _ _ ts => ts

mutual
/-- `self[name] = v` -/
def T.set (n : String) (v : T) : T → T
  | .val a b => .val a b
  | .res .fwd m ts => .res .fwd m (Ts.headSet n v ts)
  | .res k m ts =>
    if (Ts.put n v ts).2 then .res k m (Ts.put n v ts).1
    else .res k m ((Ts.put n v ts).1.append (.cons (.res .ann n (annTokens v)) .nil))
def Ts.headSet (n : String) (v : T) : Ts → Ts
  | .nil => .nil
  | .cons t ts => .cons (T.set n v t) ts
end

/-- Lists of lists, as `as_list` gives. -/
inductive L where
  | leaf (v : Nat)
  | list (l : List L)

mutual
/-- `internal`, the inner function of `as_list`. -/
def T.open : T → List L
  | .val v _ => [.leaf v]
  | .res .ann _ _ => []
  | .res k n ts => if (T.res k n ts).isGroup then [.list ts.open] else ts.open
def Ts.open : Ts → List L
  | .nil => []
  | .cons t ts => t.open ++ ts.open
end

/-! ## What is meant -/

mutual
/-- The tokens with a name that a result shows: those not inside a group or inside another name. -/
inductive Shows : T → T → Prop where
  | here {k : Kind} {n : String} {ts : Ts} : n ≠ "" → Shows (.res k n ts) (.res k n ts)
  | inside {k : Kind} {ts : Ts} {u : T} : (T.res k "" ts).isGroup = false → Among ts u → Shows (.res k "" ts) u
inductive Among : Ts → T → Prop where
  | head {t : T} {ts : Ts} {u : T} : Shows t u → Among (.cons t ts) u
  | tail {t : T} {ts : Ts} {u : T} : Among ts u → Among (.cons t ts) u
end

mutual
/-- No `ForwardResults`; annotations have a name, as their constructor demands. -/
def T.direct : T → Bool
  | .val _ _ => true
  | .res k n ts => decide (k ≠ .fwd) && (decide (k ≠ .ann) || n != "") && ts.direct
def Ts.direct : Ts → Bool
  | .nil => true
  | .cons t ts => t.direct && ts.direct
end

end EulerDB.Results
