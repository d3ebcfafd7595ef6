/-
Model of the grouping of the tokens of a statement into a tree.

Code: /repo/scheduler/compile/parse/engine/grouping.py 12-455 (the whole file);
/repo/scheduler/compile/parse/sql.py `Token` 39-120, `TokenList` 149-175, `flatten` 207-216,
`get_sublists` 218-221, `_groupable_tokens` 223-225, `_token_matching` 227-247, `token_next_by`
264-266, `token_not_matching` 268-271, `token_prev` 276-283, `token_next` 286-300, `token_index`
302-305, `group_tokens` 307-335, the classes 425-666;
/repo/scheduler/compile/parse/utils.py `recurse` 63-78, `imt` 81-102.

A token is a node with an identity, because `_group` (grouping.py 423-455) runs over a copy
of the list of references and works on tokens that have moved into a group meanwhile.
A reference is an identity; `find` gives the place at which it is now.

Simplifications:
  * the `parent` pointers are left out, no function of grouping.py reads them;
  * `value` of a group is the text of its leaves (`text`): it is set so when the group is made
    and when it is extended (sql.py 161, 325), and no other function changes its leaves;
  * `normalized` of a group is left out: it is only read for keywords, and a group is none;
  * `token_index(end)` in `group_where` is the index `end` was read from;
  * the recursion limit of Python is left out;
  * `upper` works on ASCII letters only.
-/
import Verif.Lex.Model

namespace EulerDB.Group

open EulerDB.Lex

/-- The classes of sql.py 425-666 that grouping.py builds. -/
inductive Cls
  | statement | tokenList | identifier | identifierList | typedLiteral | parenthesis | squareBrackets
  | assignment | ifs | fors | comparison | comment | wheres | cases | function | begins | operation | values
  deriving DecidableEq, Repr

/-- A token (sql.py 50-58): identity, the type it was made with, its type now, its text; or a
group (sql.py 149-162): identity, class, type (`None` when made), its tokens. -/
inductive Tok
  | leaf (id : Nat) (made ttype : TType) (value : List Char)
  | grp (id : Nat) (cls : Cls) (ttype : Option TType) (toks : List Tok)
  deriving Repr

namespace Tok

def id : Tok → Nat
  | leaf i .. => i
  | grp i .. => i

def ttype? : Tok → Option TType
  | leaf _ _ t _ => some t
  | grp _ _ t _ => t

/-- sql.py 55, 162. -/
def isGroup : Tok → Bool
  | leaf .. => false
  | grp .. => true

/-- sql.py 56; a group is made with the type `None`, which is in no type. -/
def isKeyword : Tok → Bool
  | leaf _ m _ _ => isIn m Keyword
  | grp .. => false

/-- sql.py 57. -/
def isWhitespace : Tok → Bool
  | leaf _ m _ _ => isIn m Whitespace
  | grp .. => false

def toks : Tok → List Tok
  | leaf .. => []
  | grp _ _ _ l => l

/-- `isinstance(token, cls)` for a class of groups; all are below `TokenList`. -/
def isInst (t : Tok) (c : Cls) : Bool :=
  match t with
  | leaf .. => false
  | grp _ d _ _ => c == .tokenList || d == c

/-- `isinstance(token, (cls, …))`. -/
def isAny (t : Tok) (cs : List Cls) : Bool := cs.any t.isInst

end Tok

mutual
/-- `flatten` 207-216 (sql.py 84-86 for a leaf): the leaves in order. -/
def leaves : Tok → List Tok
  | .leaf i m t v => [.leaf i m t v]
  | .grp _ _ _ l => leavesAll l
def leavesAll : List Tok → List Tok
  | [] => []
  | t :: r => leaves t ++ leavesAll r
end

def Tok.value : Tok → List Char
  | .leaf _ _ _ v => v
  | .grp .. => []

/-- `str(token)`, sql.py 60-61, 164-165; also `value`. -/
def text (t : Tok) : List Char := (leaves t).flatMap Tok.value

/-- `normalized`, sql.py 58. -/
def norm (t : Tok) : List Char :=
  if t.isKeyword then (text t).map Char.toUpper else text t

/-- `match(ttype, values)`, sql.py 88-120 without `regex`; the values given are in capitals
or have no letters, except for `null` and `role` of grouping.py 270, which are put in capitals here as
line 117-118 does. -/
def isMatch (t : Tok) (ty : TType) (values : List String) : Bool :=
  t.ttype? == some ty && values.any fun v => v.toList == norm t

/-- `match(ttype, None)`. -/
def isMatchType (t : Tok) (ty : TType) : Bool := t.ttype? == some ty

/-- `imt(token, t=ttype)` for one type: the type or one below. -/
def below (t : Tok) (ty : TType) : Bool :=
  match t.ttype? with
  | none => false
  | some x => isIn x ty

/-- `imt(token, t=(ttype, …))` for a tuple of types: membership in a tuple, hence equality. -/
def among (t : Tok) (tys : List TType) : Bool :=
  match t.ttype? with
  | none => false
  | some x => tys.contains x

/-! Token types of tokens.py 32-68. -/
def Name : TType := ["Name"]
def Placeholder : TType := ["Name", "Placeholder"]
def Builtin : TType := ["Name", "Builtin"]
def Str : TType := ["Literal", "String"]
def Single : TType := ["Literal", "String", "Single"]
def Symbol : TType := ["Literal", "String", "Symbol"]
def Number : TType := ["Literal", "Number"]
def Integer : TType := ["Literal", "Number", "Integer"]
def Float : TType := ["Literal", "Number", "Float"]
def Operator : TType := ["Operator"]
def Comparison : TType := ["Operator", "Comparison"]
def Wildcard : TType := ["Wildcard"]
def Assignment : TType := ["Assignment"]
def Order : TType := ["Keyword", "Order"]
def TZCast : TType := ["Keyword", "TZCast"]
def DML : TType := ["Keyword", "DML"]
def CTE : TType := ["Keyword", "CTE"]

/-- grouping.py 12-14. -/
def numerical : List TType := [Number, Integer, Float]
def strings : List TType := [Str, Single, Symbol]
def names : List TType := [Name, Placeholder]

/-! ### Looking for tokens, sql.py 227-305 -/

/-- The index of the first token from `start` on that fits. -/
def findFrom (p : Tok → Bool) (l : List Tok) (start : Nat) : Option Nat :=
  match (l.drop start).findIdx? p with
  | none => none
  | some k => some (start + k)

/-- `token_next(idx)` 286-300: the next token that is no white space. -/
def tokenNext (l : List Tok) (idx : Nat) : Option Nat :=
  findFrom (fun t => !t.isWhitespace) l (idx + 1)

/-- `token_prev(idx)` 276-283, 235-241: the nearest token before that is no white space. -/
def tokenPrev (l : List Tok) (idx : Nat) : Option Nat :=
  match ((l.take idx).reverse).findIdx? (fun t => !t.isWhitespace) with
  | none => none
  | some k => some ((l.take idx).length - 1 - k)

/-! ### `group_tokens`, sql.py 307-335 -/

/-- `tokens[a:b]`. -/
def slice (l : List Tok) (a b : Nat) : List Tok := (l.take b).drop a

/-- `group_tokens(cls, start, end, extend)`: the tokens afterwards, the group, the next free
identity.  `end + include_end` is `stop`.  `l[a:b] = [g]` with `b < a` puts `g` at `a`. -/
def groupTokens (l : List Tok) (c : Cls) (start stop : Nat) (extend : Bool) (next : Nat) :
    Except PyErr (List Tok × Tok × Nat) :=
  match l[start]? with
  | none => .error .indexError
  | some s =>
    match s with
    | .leaf .. =>
      let g := Tok.grp next c none (slice l start stop)
      .ok (l.take start ++ g :: l.drop (max start stop), g, next + 1)
    | .grp i d t ks =>
      if extend = true ∧ s.isInst c = true then
        let g := Tok.grp i d t (ks ++ slice l (start + 1) stop)
        .ok (l.take start ++ g :: l.drop (max (start + 1) stop), g, next)
      else
        let g := Tok.grp next c none (slice l start stop)
        .ok (l.take start ++ g :: l.drop (max start stop), g, next + 1)

/-! ### Functions with `@recurse`, utils.py 63-78 -/

mutual
/-- `recurse(*cls)(f)`: first the groups below that are not of one of the classes, then the
list itself.  `f` gets the class of the group and its tokens. -/
def recursed (cs : List Cls) (f : Cls → List Tok → Nat → Except PyErr (List Tok × Nat)) :
    Tok → Nat → Except PyErr (Tok × Nat)
  | .leaf i m t v, n => .ok (.leaf i m t v, n)
  | .grp i c t l, n =>
    match recursedAll cs f l n with
    | .error e => .error e
    | .ok (l', n') =>
      match f c l' n' with
      | .error e => .error e
      | .ok (l'', n'') => .ok (.grp i c t l'', n'')
def recursedAll (cs : List Cls) (f : Cls → List Tok → Nat → Except PyErr (List Tok × Nat)) :
    List Tok → Nat → Except PyErr (List Tok × Nat)
  | [], n => .ok ([], n)
  | t :: r, n =>
    match (if t.isAny cs then .ok (t, n) else recursed cs f t n) with
    | .error e => .error e
    | .ok (t', n') =>
      match recursedAll cs f r n' with
      | .error e => .error e
      | .ok (r', n'') => .ok (t' :: r', n'')
end

/-- A loop `while token:` that looks for the next token that fits from `start` on, does
`step` there and goes on after the index that `step` gives. -/
def loop (p : Tok → Bool) (step : List Tok → Nat → Nat → Except PyErr (List Tok × Nat × Nat)) :
    Nat → List Tok → Nat → Nat → Except PyErr (List Tok × Nat)
  | 0, _, _, _ => .error .nonterm
  | fuel + 1, l, start, n =>
    match findFrom p l start with
    | none => .ok (l, n)
    | some i =>
      match step l i n with
      | .error e => .error e
      | .ok (l', i', n') => loop p step fuel l' (i' + 1) n'

/-- One call of `group_tokens` in such a loop. -/
def put (c : Cls) (extend : Bool) (l : List Tok) (from_ to_ back n : Nat) :
    Except PyErr (List Tok × Nat × Nat) :=
  match groupTokens l c from_ (to_ + 1) extend n with
  | .error e => .error e
  | .ok (l', _, n') => .ok (l', back, n')

/-- `group_comments` 290-300. -/
def commentStep (l : List Tok) (i n : Nat) : Except PyErr (List Tok × Nat × Nat) :=
  match findFrom (fun t => !(below t Comment || t.isWhitespace)) l i with
  | none => .ok (l, i, n)
  | some e => put .comment false l i (e - 1) i n

def groupComments (_ : Cls) (l : List Tok) (n : Nat) : Except PyErr (List Tok × Nat) :=
  loop (below · Comment) commentStep (l.length + 1) l 0 n

/-- `group_functions` 333-350. -/
def functionStep (l : List Tok) (i n : Nat) : Except PyErr (List Tok × Nat × Nat) :=
  match tokenNext l i with
  | none => .ok (l, i, n)
  | some j =>
    match l[j]? with
    | none => .ok (l, i, n)
    | some t => if t.isInst .parenthesis then put .function false l i j i n else .ok (l, i, n)

def groupFunctions (_ : Cls) (l : List Tok) (n : Nat) : Except PyErr (List Tok × Nat) :=
  if l.any (fun t => text t == "CREATE".toList) && l.any (fun t => text t == "TABLE".toList) then .ok (l, n)
  else loop (below · Name) functionStep (l.length + 1) l 0 n

/-- `Where.M_CLOSE`, sql.py 573-575. -/
def whereEnds : List String :=
  ["ORDER BY", "GROUP BY", "LIMIT", "UNION", "UNION ALL", "EXCEPT", "HAVING", "RETURNING", "INTO"]

def isWhere (t : Tok) : Bool := isMatch t Keyword ["WHERE"]

/-- `_groupable_tokens[-1]`, sql.py 223-225, 520-522, 530-532: its index. -/
def lastGroupable (c : Cls) (l : List Tok) : Except PyErr Nat :=
  if c = .parenthesis ∨ c = .squareBrackets then
    if l.length ≤ 2 then .error .indexError else .ok (l.length - 2)
  else if l.length = 0 then .error .indexError else .ok (l.length - 1)

/-- `group_where` 303-317. -/
def whereStep (c : Cls) (l : List Tok) (i n : Nat) : Except PyErr (List Tok × Nat × Nat) :=
  match findFrom (isMatch · Keyword whereEnds) l (i + 1) with
  | some e => put .wheres false l i (e - 1) i n
  | none =>
    match lastGroupable c l with
    | .error e => .error e
    | .ok e => put .wheres false l i e i n

def groupWhere (c : Cls) (l : List Tok) (n : Nat) : Except PyErr (List Tok × Nat) :=
  loop isWhere (whereStep c) (l.length + 1) l 0 n

/-- `group_identifier` 216-223. -/
def identifierStep (l : List Tok) (i n : Nat) : Except PyErr (List Tok × Nat × Nat) :=
  put .identifier false l i i i n

def groupIdentifier (_ : Cls) (l : List Tok) (n : Nat) : Except PyErr (List Tok × Nat) :=
  loop (among · [Symbol, Name]) identifierStep (l.length + 1) l 0 n

/-- `group_aliased` 320-330. -/
def aliasKinds : List Cls := [.parenthesis, .function, .cases, .identifier, .operation, .comparison]

def aliasedStep (l : List Tok) (i n : Nat) : Except PyErr (List Tok × Nat × Nat) :=
  match tokenNext l i with
  | none => .ok (l, i, n)
  | some j =>
    match l[j]? with
    | none => .ok (l, i, n)
    | some t => if t.isInst .identifier then put .identifier true l i j i n else .ok (l, i, n)

def groupAliased (_ : Cls) (l : List Tok) (n : Nat) : Except PyErr (List Tok × Nat) :=
  loop (fun t => t.isAny aliasKinds || below t Number) aliasedStep (l.length + 1) l 0 n

/-- `align_comments` 364-372. -/
def alignStep (l : List Tok) (i n : Nat) : Except PyErr (List Tok × Nat × Nat) :=
  match tokenPrev l i with
  | none => .ok (l, i, n)
  | some j =>
    match l[j]? with
    | none => .ok (l, i, n)
    | some t => if t.isGroup then put .tokenList true l j i j n else .ok (l, i, n)

def alignComments (_ : Cls) (l : List Tok) (n : Nat) : Except PyErr (List Tok × Nat) :=
  loop (·.isInst .comment) alignStep (l.length + 1) l 0 n

/-- `group_order` 353-361, without `recurse`. -/
def orderStep (l : List Tok) (i n : Nat) : Except PyErr (List Tok × Nat × Nat) :=
  match tokenPrev l i with
  | none => .ok (l, i, n)
  | some j =>
    match l[j]? with
    | none => .ok (l, i, n)
    | some t =>
      if t.isInst .identifier || below t Number then put .identifier false l j i j n else .ok (l, i, n)

def groupOrder (l : List Tok) (n : Nat) : Except PyErr (List Tok × Nat) :=
  loop (below · Order) orderStep (l.length + 1) l 0 n

/-- The loop of `group_values` 378-382: the last group in parentheses from `i` on. -/
def lastParen : List Tok → Nat → Option Nat
  | [], _ => none
  | t :: r, i =>
    match lastParen r (i + 1) with
    | some j => some j
    | none => if t.isInst .parenthesis then some i else none

/-- `group_values` 375-385. -/
def groupValues (l : List Tok) (n : Nat) : Except PyErr (List Tok × Nat) :=
  match findFrom (isMatch · Keyword ["VALUES"]) l 0 with
  | none => .ok (l, n)
  | some s =>
    match lastParen (l.drop s) s with
    | none => .ok (l, n)
    | some e =>
      match put .values true l s e s n with
      | .error x => .error x
      | .ok (l', _, n') => .ok (l', n')

/-! ### `_group_matching`, grouping.py 17-49 -/

/-- A class with a beginning and an end. -/
structure Pair where
  cls : Cls
  ty : TType
  opens : List String
  close : String

def squares : Pair := ⟨.squareBrackets, Punctuation, ["["], "]"⟩
def parens : Pair := ⟨.parenthesis, Punctuation, ["("], ")"⟩
def caseEnd : Pair := ⟨.cases, Keyword, ["CASE"], "END"⟩
def ifEnd : Pair := ⟨.ifs, Keyword, ["IF"], "END IF"⟩
def forEnd : Pair := ⟨.fors, Keyword, ["FOR", "FOREACH"], "END LOOP"⟩
def beginEnd : Pair := ⟨.begins, Keyword, ["BEGIN"], "END"⟩

/-- Lines 40-49: the last token of `l` ends a group. -/
def closeAt (p : Pair) (opens : List Nat) (l : List Tok) (n : Nat) :
    Except PyErr (List Nat × List Tok × Nat) :=
  match opens with
  | [] => .ok ([], l, n)
  | o :: os =>
    match groupTokens l p.cls o l.length false n with
    | .error e => .error e
    | .ok (l', _, n') => .ok (os, l', n')

mutual
/-- `_group_matching(token, cls)` for a group. -/
def matching (p : Pair) : Tok → Nat → Except PyErr (Tok × Nat)
  | .leaf i m t v, n => .ok (.leaf i m t v, n)
  | .grp i c t l, n =>
    match matchLoop p l [] [] n with
    | .error e => .error e
    | .ok (l', n') => .ok (.grp i c t l', n')
/-- The loop 21-49 over the tokens not yet looked at; `done` are the tokens of the list
before them, as they are now, so that `tidx` is the length of `done`. -/
def matchLoop (p : Pair) : List Tok → List Nat → List Tok → Nat → Except PyErr (List Tok × Nat)
  | [], _, done, n => .ok (done, n)
  | t :: r, opens, done, n =>
    if t.isWhitespace then matchLoop p r opens (done ++ [t]) n
    else if t.isGroup && !t.isInst p.cls then
      match matching p t n with
      | .error e => .error e
      | .ok (t', n') => matchLoop p r opens (done ++ [t']) n'
    else if isMatch t p.ty p.opens then matchLoop p r (done.length :: opens) (done ++ [t]) n
    else if isMatch t p.ty [p.close] then
      match closeAt p opens (done ++ [t]) n with
      | .error e => .error e
      | .ok (os, done', n') => matchLoop p r os done' n'
    else matchLoop p r opens (done ++ [t]) n
end

/-! ### `_group`, grouping.py 423-455 -/

mutual
/-- The place of the token with the identity `i`, as the way to it from the list. -/
def findTok (i : Nat) : Tok → Option (List Nat)
  | .leaf j _ _ _ => if j = i then some [] else none
  | .grp j _ _ l => if j = i then some [] else findAll i l 0
def findAll (i : Nat) : List Tok → Nat → Option (List Nat)
  | [], _ => none
  | t :: r, k =>
    match findTok i t with
    | some w => some (k :: w)
    | none => findAll i r (k + 1)
end

/-- The token at a place. -/
def tokAt : List Nat → List Tok → Option Tok
  | [], _ => none
  | [k], l => l[k]?
  | k :: w, l =>
    match l[k]? with
    | none => none
    | some t => tokAt w t.toks

/-- Another token put at a place. -/
def setAt (new : Tok) : List Nat → List Tok → List Tok
  | [], l => l
  | [k], l => l.set k new
  | k :: w, l =>
    match l[k]? with
    | some (.grp i c t ks) => l.set k (.grp i c t (setAt new w ks))
    | _ => l

/-- The token a reference stands for, as it is now. -/
def deref (l : List Tok) (i : Nat) : Except PyErr (List Nat × Tok) :=
  match findAll i l 0 with
  | none => .error .keyError
  | some w =>
    match tokAt w l with
    | none => .error .keyError
    | some t => .ok (w, t)

/-- The arguments of `_group`.  `validNext` gets `None` when there is no next token.  `post`
gets the tokens, `pidx`, `tidx`, `nidx` and gives the tokens, `from_idx`, `to_idx`. -/
structure Pass where
  cls : Cls
  fits : Tok → Bool
  validPrev : Tok → Bool
  validNext : Option Tok → Bool
  post : List Tok → Nat → Nat → Option Nat → Except PyErr (List Tok × Nat × Option Nat)
  extend : Bool
  recurse : Bool

/-- The state of the loop: the tokens, `tidx_offset`, `pidx` with the reference `prev_`. -/
structure Run where
  toks : List Tok
  offset : Int
  prev : Option (Nat × Nat)
  next : Nat

/-- `group_tokens(cls, from_idx, to_idx, extend)` and the lines after it, 449-453. -/
def unite (p : Pass) (s : Run) (l : List Tok) (from_ : Nat) (to_ : Option Nat) : Except PyErr Run :=
  match to_ with
  | none => .error .typeError
  | some e =>
    match groupTokens l p.cls from_ (e + 1) p.extend s.next with
    | .error x => .error x
    | .ok (l', g, n) => .ok ⟨l', s.offset + ((e : Int) - (from_ : Int)), some (from_, g.id), n⟩

/-- The token at an index that may be `None`. -/
def atIdx (l : List Tok) : Option Nat → Option Tok
  | none => none
  | some j => l[j]?

/-- Lines 445-455 for the token `i` at the index `tidx`. -/
def visit (p : Pass) (s : Run) (i tidx : Nat) : Except PyErr Run :=
  match deref s.toks i with
  | .error e => .error e
  | .ok (_, t) =>
    if p.fits t then
      match s.prev with
      | none => .ok { s with prev := some (tidx, i) }
      | some (pidx, pid) =>
        match deref s.toks pid with
        | .error e => .error e
        | .ok (_, prev) =>
          if p.validPrev prev && p.validNext (atIdx s.toks (tokenNext s.toks tidx)) then
            match p.post s.toks pidx tidx (tokenNext s.toks tidx) with
            | .error e => .error e
            | .ok (l, from_, to_) => unite p s l from_ to_
          else .ok { s with prev := some (tidx, i) }
    else .ok { s with prev := some (tidx, i) }

/-- Lines 442-443: the call of `_group` for a token that is a group of another class, `rec`.
Whether it is one is asked of the copy: the class never changes. -/
def descend (p : Pass) (rec : Tok → Nat → Except PyErr (Tok × Nat)) (s : Run) (t : Tok) : Except PyErr Run :=
  if p.recurse && t.isGroup && !t.isInst p.cls then
    match deref s.toks t.id with
    | .error e => .error e
    | .ok (w, now) =>
      match rec now s.next with
      | .error e => .error e
      | .ok (now', n) => .ok { s with toks := setAt now' w s.toks, next := n }
  else .ok s

/-- Lines 432-455: the loop over the copy of the list, with the number `idx` of tokens
already looked at.  Class and white space are those of the copy: they never change. -/
def passLoop (p : Pass) (rec : Tok → Nat → Except PyErr (Tok × Nat)) :
    List Tok → Nat → Run → Except PyErr Run
  | [], _, s => .ok s
  | t :: r, idx, s =>
    if (idx : Int) - s.offset < 0 then passLoop p rec r (idx + 1) s
    else if t.isWhitespace then passLoop p rec r (idx + 1) s
    else
      let tidx := ((idx : Int) - s.offset).toNat
      match descend p rec s t with
      | .error e => .error e
      | .ok s' =>
        match visit p s' t.id tidx with
        | .error e => .error e
        | .ok s'' => passLoop p rec r (idx + 1) s''

/-- `_group(tlist, …)`; `fuel` bounds the depth of the calls. -/
def pass (p : Pass) : Nat → Tok → Nat → Except PyErr (Tok × Nat)
  | 0, _, _ => .error .nonterm
  | fuel + 1, t, n =>
    match t with
    | .leaf .. => .ok (t, n)
    | .grp i c ty l =>
      match passLoop p (pass { p with recurse := true } fuel) l 0 ⟨l, 0, none, n⟩ with
      | .error e => .error e
      | .ok s => .ok (.grp i c ty s.toks, s.next)

/-- `post` of most passes: from the token before to the token after. -/
def wide (l : List Tok) (pidx _ : Nat) (nidx : Option Nat) : Except PyErr (List Tok × Nat × Option Nat) :=
  .ok (l, pidx, nidx)

/-- `post` of `group_typed_literal` 124-125. -/
def ahead (l : List Tok) (_ tidx : Nat) (nidx : Option Nat) : Except PyErr (List Tok × Nat × Option Nat) :=
  .ok (l, tidx, nidx)

/-- `group_typecasts` 76-87. -/
def typecasts : Pass where
  cls := .identifier
  fits t := isMatch t Punctuation ["::"]
  validPrev _ := true
  validNext t := t.isSome
  post := wide
  extend := true
  recurse := true

/-- `group_tzcasts` 90-100. -/
def tzcasts : Pass where
  cls := .identifier
  fits t := t.ttype? == some TZCast
  validPrev _ := true
  validNext t := t.isSome
  post := wide
  extend := true
  recurse := true

/-- `group_typed_literal` 103-130 with `TypedLiteral`, sql.py 508-512: the first pass. -/
def typedLiteral : Pass where
  cls := .typedLiteral
  fits t := isMatchType t Builtin || isMatch t Keyword ["TIMESTAMP"]
  validPrev _ := true
  validNext t := match t with | none => false | some t => isMatchType t Single
  post := ahead
  extend := false
  recurse := true

/-- The second pass of `group_typed_literal`. -/
def typedMore : Pass where
  cls := .typedLiteral
  fits t := t.isInst .typedLiteral
  validPrev _ := true
  validNext t := match t with
    | none => false
    | some t => isMatch t Keyword ["DAY", "HOUR", "MINUTE", "MONTH", "SECOND", "YEAR"]
  post := ahead
  extend := true
  recurse := true

/-- Lines 146-153. -/
def periodPost (l : List Tok) (pidx tidx : Nat) (nidx : Option Nat) :
    Except PyErr (List Tok × Nat × Option Nat) :=
  match atIdx l nidx with
  | none => .ok (l, pidx, some tidx)
  | some t =>
    if t.isAny [.squareBrackets, .function] || among t [Name, Symbol, Wildcard] then .ok (l, pidx, nidx)
    else .ok (l, pidx, some tidx)

/-- `group_period` 133-155. -/
def period : Pass where
  cls := .identifier
  fits t := isMatch t Punctuation ["."]
  validPrev t := t.isAny [.squareBrackets, .identifier] || among t [Name, Symbol]
  validNext _ := true
  post := periodPost
  extend := true
  recurse := true

/-- `group_as` 158-172. -/
def asNames : Pass where
  cls := .identifier
  fits t := t.isKeyword && norm t == "AS".toList
  validPrev t := norm t == "NULL".toList || !t.isKeyword
  validNext t := match t with | none => false | some t => !among t [DML, DDL, CTE]
  post := wide
  extend := true
  recurse := true

def notKeyword (t : Tok) : Bool := !below t Keyword

/-- Lines 182-186. -/
def assignPost (l : List Tok) (pidx _ : Nat) (nidx : Option Nat) :
    Except PyErr (List Tok × Nat × Option Nat) :=
  match nidx with
  | none => .error .typeError
  | some j =>
    match findFrom (isMatch · Punctuation [";"]) l (j + 1) with
    | none => .ok (l, pidx, some j)
    | some s => .ok (l, pidx, some s)

/-- `group_assignment` 175-189. -/
def assignment : Pass where
  cls := .assignment
  fits t := isMatch t Assignment [":="]
  validPrev := notKeyword
  validNext t := match t with | none => false | some t => notKeyword t
  post := assignPost
  extend := true
  recurse := true

def compares (t : Tok) : Bool :=
  t.isAny [.parenthesis, .function, .identifier, .operation, .typedLiteral] ||
    among t (numerical ++ strings ++ names) || (t.isKeyword && norm t == "NULL".toList)

/-- `group_comparison` 192-213. -/
def comparison : Pass where
  cls := .comparison
  fits t := t.ttype? == some Comparison
  validPrev := compares
  validNext t := match t with | none => false | some t => compares t
  post := wide
  extend := false
  recurse := true

/-- `group_arrays` 226-243. -/
def arraysPost (l : List Tok) (pidx tidx : Nat) (_ : Option Nat) :
    Except PyErr (List Tok × Nat × Option Nat) := .ok (l, pidx, some tidx)

def arrays : Pass where
  cls := .identifier
  fits t := t.isInst .squareBrackets
  validPrev t := t.isAny [.squareBrackets, .identifier, .function] || among t [Name, Symbol]
  validNext _ := true
  post := arraysPost
  extend := true
  recurse := false

def operates (t : Tok) : Bool :=
  t.isAny [.squareBrackets, .parenthesis, .function, .identifier, .operation, .typedLiteral] ||
    among t (numerical ++ strings ++ names) ||
    isMatch t Keyword ["CURRENT_DATE", "CURRENT_TIME", "CURRENT_TIMESTAMP"]

/-- `tlist[tidx].ttype = T.Operator`, 261. -/
def setType (ty : TType) : Tok → Tok
  | .leaf i m _ v => .leaf i m ty v
  | .grp i c _ l => .grp i c (some ty) l

/-- Lines 260-262. -/
def operatorPost (l : List Tok) (pidx tidx : Nat) (nidx : Option Nat) :
    Except PyErr (List Tok × Nat × Option Nat) :=
  match l[tidx]? with
  | none => .error .indexError
  | some t => .ok (l.set tidx (setType Operator t), pidx, nidx)

/-- `group_operator` 246-266. -/
def operators : Pass where
  cls := .operation
  fits t := among t [Operator, Wildcard]
  validPrev := operates
  validNext t := match t with | none => false | some t => operates t
  post := operatorPost
  extend := false
  recurse := true

def lists (t : Tok) : Bool :=
  t.isAny [.function, .cases, .identifier, .comparison, .identifierList, .operation] ||
    isMatch t Keyword ["NULL", "ROLE"] ||
    among t (numerical ++ strings ++ names ++ [Keyword, Comment, Wildcard])

/-- `group_identifier_list` 269-287. -/
def identifierList : Pass where
  cls := .identifierList
  fits t := isMatch t Punctuation [","]
  validPrev := lists
  validNext t := match t with | none => false | some t => lists t
  post := wide
  extend := true
  recurse := true

/-! ### `group`, grouping.py 388-420 -/

mutual
/-- The number of tokens of a tree, groups included. -/
def size : Tok → Nat
  | .leaf .. => 1
  | .grp _ _ _ l => sizeAll l + 1
def sizeAll : List Tok → Nat
  | [] => 0
  | t :: r => size t + sizeAll r
end

/-- What one function of the list 389-418 does to the statement. -/
inductive Func
  | deep (cs : List Cls) (f : Cls → List Tok → Nat → Except PyErr (List Tok × Nat))
  | flat (f : List Tok → Nat → Except PyErr (List Tok × Nat))
  | pair (p : Pair)
  | pass (p : Pass)

def runFunc : Func → Tok → Nat → Except PyErr (Tok × Nat)
  | .deep cs f, t, n => recursed cs f t n
  | .flat f, t, n =>
    match t with
    | .leaf .. => .ok (t, n)
    | .grp i c ty l =>
      match f l n with
      | .error e => .error e
      | .ok (l', n') => .ok (.grp i c ty l', n')
  | .pair p, t, n => matching p t n
  | .pass p, t, n => pass p (size t + 1) t n

/-- The functions in their order; `group_typed_literal` is two passes. -/
def functions : List Func :=
  [.deep [.comment] groupComments,
   .pair squares, .pair parens, .pair caseEnd, .pair ifEnd, .pair forEnd, .pair beginEnd,
   .deep [.function] groupFunctions, .deep [.wheres] groupWhere,
   .pass period, .pass arrays, .deep [.identifier] groupIdentifier, .flat groupOrder,
   .pass typecasts, .pass tzcasts, .pass typedLiteral, .pass typedMore,
   .pass operators, .pass comparison, .pass asNames, .deep [] groupAliased, .pass assignment,
   .deep [] alignComments, .pass identifierList, .flat groupValues]

def runAll : List Func → Tok → Nat → Except PyErr (Tok × Nat)
  | [], t, n => .ok (t, n)
  | f :: fs, t, n =>
    match runFunc f t n with
    | .error e => .error e
    | .ok (t', n') => runAll fs t' n'

def number : Nat → List Token → List Tok
  | _, [] => []
  | k, t :: r => .leaf k t.ttype t.ttype t.value :: number (k + 1) r

/-- The statement before grouping (statement_splitter.py 91, 100, 108): the tokens of the lexer. -/
def ungrouped (l : List Token) : Tok := .grp 0 .statement none (number 1 l)

/-- `group(stmt)` for the tokens of one statement. -/
def group (l : List Token) : Except PyErr Tok :=
  match runAll functions (ungrouped l) (l.length + 1) with
  | .error e => .error e
  | .ok (t, _) => .ok t

/-- The tokens of the lexer a leaf stands for. -/
def Tok.token : Tok → Token
  | .leaf _ _ t v => ⟨t, v⟩
  | .grp .. => ⟨[], []⟩

/-- The leaves of the statement, as the parser reads them. -/
def flat (t : Tok) : List Token := (leaves t).map Tok.token

end EulerDB.Group
