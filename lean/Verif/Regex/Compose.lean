/-
C92: the pattern of a parser is read as the composition of the patterns of its elements.
-/
import Verif.Regex.Range

namespace EulerDB.Regex

open EulerDB

abbrev Piece := Re × Bool

/-- Alternatives, one after the other, written into an open group. -/
def addAlts (f : Frame) : List (List Piece) → Frame
  | [] => f
  | [ps] => f.add ps
  | ps :: rest => addAlts { f with alts := f.alts ++ [seqOfPieces (f.cur ++ ps)], cur := [] } rest

def bar (f : Frame) : Frame := { f with alts := f.alts ++ [seqOfPieces f.cur], cur := [] }

theorem addAlts_append : ∀ (A B : List (List Piece)) (f : Frame), A ≠ [] → B ≠ [] → addAlts f (A ++ B) = addAlts (bar (addAlts f A)) B
  | [], _, _, h, _ => absurd rfl h
  | [ps], b :: B, f, _, _ => by simp [addAlts, bar, Frame.add]
  | ps :: p2 :: rest, B, f, _, hB => by
    rw [List.cons_append]
    show addAlts _ ((p2 :: rest) ++ B) = _
    rw [addAlts_append (p2 :: rest) B _ (by simp) hB]
    rfl

def closeAlts : List (List Piece) → Re
  | [] => .eps
  | [ps] => seqOfPieces ps
  | ps :: rest => .alt (seqOfPieces ps) (closeAlts rest)

theorem altOf_append (x r : Re) : ∀ l : List Re, altOf (l ++ [x]) r = altOf l (.alt x r)
  | [] => rfl
  | a :: l => by simp [altOf, altOf_append x r l]

theorem addAlts_kind : ∀ (A : List (List Piece)) (f : Frame), (addAlts f A).kind = f.kind
  | [], _ => rfl
  | [_], _ => rfl
  | _ :: p2 :: rest, _ => addAlts_kind (p2 :: rest) _

theorem addAlts_close : ∀ (A : List (List Piece)) (k : Kind) (al : List Re), A ≠ [] → altOf (addAlts ⟨k, al, []⟩ A).alts (seqOfPieces (addAlts ⟨k, al, []⟩ A).cur) = altOf al (closeAlts A)
  | [], _, _, h => absurd rfl h
  | [ps], k, al, _ => by simp [addAlts, Frame.add, closeAlts]
  | ps :: p2 :: rest, k, al, _ => by
    show altOf (addAlts ⟨k, al ++ [seqOfPieces ps], []⟩ (p2 :: rest)).alts (seqOfPieces (addAlts ⟨k, al ++ [seqOfPieces ps], []⟩ (p2 :: rest)).cur) = _
    rw [addAlts_close (p2 :: rest) k _ (by simp), altOf_append]
    rfl

theorem close_group {A : List (List Piece)} (h : A ≠ []) : (addAlts ⟨.group, [], []⟩ A).close = closeAlts A := by
  rw [Frame.close, addAlts_kind]
  exact addAlts_close A .group [] h

theorem close_look {A : List (List Piece)} (h : A ≠ []) (neg : Bool) : (addAlts ⟨.look neg, [], []⟩ A).close = .ahead neg (closeAlts A) := by
  rw [Frame.close, addAlts_kind]
  exact congrArg (Re.ahead neg) (addAlts_close A (.look neg) [] h)

/-! ### Steps of the reader -/

/-- A text that is read completely, whatever follows, and what it does to the open group. -/
def Reads (t : List Char) (F : Frame → Frame) : Prop := ∃ m ≤ t.length, ∀ n f st k, goRead (n + m) f st (t ++ k) = goRead n (F f) st k

theorem goRead_cons (n : Nat) (f : Frame) (st : List Frame) (c : Char) (s : List Char) : goRead (n + 1) f st (c :: s) =
    if c = '|' then goRead n { f with alts := f.alts ++ [seqOfPieces f.cur], cur := [] } st s
    else if c = ')' then
      match st with
      | [] => none
      | g :: st => goRead n (g.add [(f.close, false)]) st s
    else if c = '(' then
      match s with
      | '?' :: ':' :: r => goRead n ⟨.group, [], []⟩ (f :: st) r
      | '?' :: '=' :: r => goRead n ⟨.look false, [], []⟩ (f :: st) r
      | '?' :: '!' :: r => goRead n ⟨.look true, [], []⟩ (f :: st) r
      | '?' :: _ => none
      | r => goRead n ⟨.group, [], []⟩ (f :: st) r
    else
      match readRep (c :: s) with
      | some ((lo, hi), r) =>
        match f.cur.getLast? with
        | some (x, false) => if below hi lo then none else goRead n { f with cur := f.cur.dropLast ++ [(.rep lo hi x, true)] } st r
        | _ => none
      | none =>
        match readAtom (c :: s) with
        | some (a, r) => goRead n (f.add [a]) st r
        | none => none := rfl

theorem Reads.nil : Reads [] id := ⟨0, by simp, fun _ _ _ _ => rfl⟩

theorem Reads.comp {t t' : List Char} {F G : Frame → Frame} (h : Reads t F) (h' : Reads t' G) : Reads (t ++ t') (G ∘ F) := by
  obtain ⟨m, hm, h⟩ := h
  obtain ⟨m', hm', h'⟩ := h'
  refine ⟨m' + m, by simp; omega, fun n f st k => ?_⟩
  rw [← Nat.add_assoc, List.append_assoc, h, h']
  rfl

theorem Reads.congr {t : List Char} {F G : Frame → Frame} (h : Reads t F) (hFG : ∀ f, F f = G f) : Reads t G := by
  have : F = G := funext hFG
  exact this ▸ h

theorem readRep_none {d : Char} (h : d ∉ ['|', ')', '(', '*', '+', '?', '{']) (r : List Char) : readRep (d :: r) = none := by
  simp only [List.mem_cons, List.not_mem_nil, or_false, not_or] at h
  unfold readRep
  split <;> first
    | rfl
    | (rename_i heq; simp at heq; tauto)

theorem reads_atom {t : List Char} {a : Piece} (hs : Starts t) (ha : ∀ k, readAtom (t ++ k) = some (a, k)) : Reads t fun f => f.add [a] := by
  obtain ⟨d, r, rfl, hd⟩ := hs
  refine ⟨1, by simp, fun n f st k => ?_⟩
  have h1 := ha k
  have h2 := readRep_none hd (r ++ k)
  simp only [List.mem_cons, List.not_mem_nil, or_false, not_or] at hd
  rw [List.cons_append] at h1 ⊢
  rw [goRead_cons, if_neg hd.1, if_neg hd.2.1, if_neg hd.2.2.1, h2]
  dsimp only
  rw [h1]

theorem reads_bar : Reads ['|'] bar := ⟨1, by simp, fun n f st k => by simp [goRead, bar]⟩

theorem reads_group {t : List Char} {F : Frame → Frame} (h : Reads t F) : Reads (['(', '?', ':'] ++ (t ++ [')'])) fun f => f.add [((F ⟨.group, [], []⟩).close, false)] := by
  obtain ⟨m, hm, h⟩ := h
  refine ⟨m + 1 + 1, by simp; omega, fun n f st k => ?_⟩
  have e : ['(', '?', ':'] ++ (t ++ [')']) ++ k = '(' :: '?' :: ':' :: (t ++ (')' :: k)) := by simp
  rw [e, show n + (m + 1 + 1) = (n + 1 + m) + 1 by omega, goRead_cons, if_neg (by decide), if_neg (by decide), if_pos rfl]
  show goRead (n + 1 + m) ⟨.group, [], []⟩ (f :: st) (t ++ (')' :: k)) = _
  rw [h, goRead_cons, if_neg (by decide), if_pos rfl]

theorem reads_look {t : List Char} {F : Frame → Frame} (h : Reads t F) (neg : Bool) :
    Reads (['(', '?', if neg then '!' else '='] ++ (t ++ [')'])) fun f => f.add [((F ⟨.look neg, [], []⟩).close, false)] := by
  obtain ⟨m, hm, h⟩ := h
  refine ⟨m + 1 + 1, by simp; omega, fun n f st k => ?_⟩
  cases neg
  · have e : ['(', '?', '='] ++ (t ++ [')']) ++ k = '(' :: '?' :: '=' :: (t ++ (')' :: k)) := by simp
    simp only [Bool.false_eq_true, if_false]
    rw [e, show n + (m + 1 + 1) = (n + 1 + m) + 1 by omega, goRead_cons, if_neg (by decide), if_neg (by decide), if_pos rfl]
    show goRead (n + 1 + m) ⟨.look false, [], []⟩ (f :: st) (t ++ (')' :: k)) = _
    rw [h, goRead_cons, if_neg (by decide), if_pos rfl]
  · have e : ['(', '?', '!'] ++ (t ++ [')']) ++ k = '(' :: '?' :: '!' :: (t ++ (')' :: k)) := by simp
    simp only [if_true]
    rw [e, show n + (m + 1 + 1) = (n + 1 + m) + 1 by omega, goRead_cons, if_neg (by decide), if_neg (by decide), if_pos rfl]
    show goRead (n + 1 + m) ⟨.look true, [], []⟩ (f :: st) (t ++ (')' :: k)) = _
    rw [h, goRead_cons, if_neg (by decide), if_pos rfl]

/-- A plain group that does not begin with a question mark. -/
theorem reads_paren {t : List Char} {F : Frame → Frame} (h : Reads t F) (hq : ∃ d r, t = d :: r ∧ d ≠ '?') : Reads ('(' :: (t ++ [')'])) fun f => f.add [((F ⟨.group, [], []⟩).close, false)] := by
  obtain ⟨m, hm, h⟩ := h
  obtain ⟨d, r, rfl, hd⟩ := hq
  refine ⟨m + 1 + 1, by simp at hm ⊢; omega, fun n f st k => ?_⟩
  have e : '(' :: (d :: r ++ [')']) ++ k = '(' :: (d :: (r ++ (')' :: k))) := by simp
  have h' := h (n + 1) ⟨.group, [], []⟩ (f :: st) (')' :: k)
  rw [List.cons_append] at h'
  rw [e, show n + (m + 1 + 1) = (n + 1 + m) + 1 by omega, goRead_cons, if_neg (by decide), if_neg (by decide), if_pos rfl]
  split <;> first
    | (rename_i heq; simp at heq; exact absurd heq.1 hd)
    | skip
  rw [h', goRead_cons, if_neg (by decide), if_pos rfl]

/-! ### Numbers and repetition -/

theorem readNum_natStr (n : Nat) {c : Char} (hc : c.isDigit = false) (k : List Char) : readNum (Text.natStr n ++ c :: k) = (some n, c :: k) := by
  have ht : (Text.natStr n ++ c :: k).takeWhile Char.isDigit = Text.natStr n := by
    rw [List.takeWhile_append_of_pos (fun x hx => Text.natStr_digit hx)]
    simp [hc]
  simp only [readNum, ht, Text.natStr_ne_nil, if_false, Text.parseNat_natStr]
  simp

theorem readRep_suffix {lo : Nat} {hi : Option Nat} (h : ¬ (lo = 1 ∧ hi = some 1)) (k : List Char) : readRep (suffix lo hi ++ k) = some ((lo, hi), k) := by
  cases hi with
  | none =>
    simp only [suffix]
    split
    · subst lo; rfl
    · split
      · subst lo; rfl
      · have e : '{' :: (Text.natStr lo ++ [',', '}']) ++ k = '{' :: (Text.natStr lo ++ ',' :: ('}' :: k)) := by simp
        have h2 : readNum ('}' :: k) = (none, '}' :: k) := by simp [readNum]
        simp only [e, readRep, readNum_natStr lo (show Char.isDigit ',' = false by decide), h2]
        rfl
  | some b =>
    simp only [suffix]
    split
    · rename_i hb
      have : lo ≠ 1 := fun hc => h ⟨hc, by rw [← hb, hc]⟩
      have e : '{' :: (Text.natStr lo ++ ['}']) ++ k = '{' :: (Text.natStr lo ++ '}' :: k) := by simp
      subst hb
      simp only [if_neg this, e, readRep, readNum_natStr lo (show Char.isDigit '}' = false by decide)]
    · have e : '{' :: (Text.natStr lo ++ ',' :: (Text.natStr b ++ ['}'])) ++ k = '{' :: (Text.natStr lo ++ ',' :: (Text.natStr b ++ '}' :: k)) := by simp
      simp only [e, readRep, readNum_natStr lo (show Char.isDigit ',' = false by decide), readNum_natStr b (show Char.isDigit '}' = false by decide)]
      rfl

theorem suffix_head {lo : Nat} {hi : Option Nat} (h : ¬ (lo = 1 ∧ hi = some 1)) : ∃ d r, suffix lo hi = d :: r ∧ d ≠ '|' ∧ d ≠ ')' ∧ d ≠ '(' := by
  cases hi with
  | none =>
    simp only [suffix]
    split
    · exact ⟨_, _, rfl, by decide, by decide, by decide⟩
    · split <;> exact ⟨_, _, rfl, by decide, by decide, by decide⟩
  | some b =>
    simp only [suffix]
    split
    · rename_i hb
      rw [if_neg (fun hc => h ⟨hc, by rw [← hb, hc]⟩)]
      exact ⟨_, _, rfl, by decide, by decide, by decide⟩
    · exact ⟨_, _, rfl, by decide, by decide, by decide⟩

theorem reads_rep {t : List Char} {x : Re} (h : Reads t fun f => f.add [(x, false)]) {lo : Nat} {hi : Option Nat} (hb : below hi lo = false) (hs : ¬ (lo = 1 ∧ hi = some 1)) :
    Reads (t ++ suffix lo hi) fun f => f.add [(.rep lo hi x, true)] := by
  obtain ⟨m, hm, h⟩ := h
  obtain ⟨d, r, hd, h1, h2, h3⟩ := suffix_head hs
  refine ⟨1 + m, by rw [List.length_append, hd]; simp; omega, fun n f st k => ?_⟩
  have hr := readRep_suffix hs k
  rw [← Nat.add_assoc, List.append_assoc, h]
  rw [hd, List.cons_append] at hr ⊢
  rw [goRead_cons, if_neg h1, if_neg h2, if_neg h3, hr]
  simp [Frame.add, hb]

/-! ### The pieces of a parser -/

/-- The characters of a `Char` and whether they are those that do not match. -/
def charChars (inc exc : List Char) : List Char × Bool :=
  let i := (charSet inc).filter fun c => decide (c ∉ charSet exc)
  if i = [] then (charSet exc, true) else (i, false)

theorem charText_eq (inc exc : List Char) : charText inc exc = regexRange (charChars inc exc).1 (charChars inc exc).2 := by
  simp only [charText, charChars]
  split <;> rfl

def seqP (p : Prec) (A : List (List Piece)) : List Piece := if p = .alt then [(closeAlts A, false)] else A.flatten

def unitRe (p : Prec) (A : List (List Piece)) : Re := if p = .unit then seqOfPieces A.flatten else closeAlts A

/-- A letter in one of two spellings. -/
def letter (p : Char × Char) : Re := if p.1 = p.2 then Re.chr p.2 else .set false [(p.1, p.1), (p.2, p.2)]

def PE.alts : PE → List (List Piece)
  | .char inc exc => [[(.set (charChars inc exc).2 (rangeSet (charChars inc exc).1), false)]]
  | .lit s => [s.map fun c => (Re.chr c, false)]
  | .and a b => [seqP a.regex.1 a.alts ++ seqP b.regex.1 b.alts]
  | .first a b => a.alts ++ b.alts
  | .key lower upper ident => [(lower.zip upper).map (fun p => (letter p, false)) ++ [(.alt .eot (.ahead true (.set false (rangeSet ident))), false)]]
  | .orEmpty a => a.alts
  | .many e lo hi => if lo = 1 ∧ hi = some 1 then [[(unitRe e.regex.1 e.alts, false)]] else [[(.rep lo hi (unitRe e.regex.1 e.alts), true)]]
  | .opt e => [[(.rep 0 (some 1) (unitRe e.regex.1 e.alts), true)]]
  | .no e => [[(.ahead true (closeAlts e.alts), false)]]
  | .ahead e => [[(.ahead false (closeAlts e.alts), false)]]

def PE.isRep : PE → Bool
  | .many _ _ _ => true
  | .opt _ => true
  | _ => false

/-- Parsers whose pattern is what it should be: the characters are not lost, and there is no repetition of a repetition. -/
def PE.Good : PE → Prop
  | .char inc exc => RangeOk (charChars inc exc).1
  | .lit s => s ≠ []
  | .and a b => a.Good ∧ b.Good
  | .first a b => a.Good ∧ b.Good
  | .key _ _ ident => RangeOk ident
  | .orEmpty a => a.Good
  | .many e lo hi => e.Good ∧ e.isRep = false ∧ below hi lo = false
  | .opt e => e.Good ∧ e.isRep = false
  | .no e => e.Good
  | .ahead e => e.Good

theorem reads_map {α : Type} (t : α → List Char) (x : α → Re) (h : ∀ a, Reads (t a) fun f => f.add [(x a, false)]) : ∀ l : List α, Reads (l.flatMap t) fun f => f.add (l.map fun a => (x a, false))
  | [] => Reads.nil.congr fun f => by simp [Frame.add]
  | a :: l => ((h a).comp (reads_map t x h l)).congr fun f => by simp [Frame.add]

theorem reads_letter (p : Char × Char) : Reads (if p.1 = p.2 then reEsc p.2 else '[' :: (reEsc p.1 ++ reEsc p.2 ++ [']'])) fun f => f.add [(letter p, false)] := by
  unfold letter
  split
  · exact reads_atom (esc_starts reEsc_escaper p.2) (readAtom_esc reEsc_escaper p.2)
  · refine reads_atom ⟨'[', _, rfl, by decide⟩ fun k => ?_
    have := readAtom_class reEsc_escaper (l := [(p.1, p.1), (p.2, p.2)]) (by simp) (by simp) k
    simpa [itemsText, itemText] using this

theorem reads_keyword {t : List Char} {F : Frame → Frame} (h : Reads t F) {ident : List Char} (hi : RangeOk ident) :
    Reads (keywordText t ident) fun f => (F f).add [(.alt .eot (.ahead true (.set false (rangeSet ident))), false)] := by
  have h1 : Reads ['$'] fun f => f.add [(.eot, true)] := reads_atom ⟨'$', [], rfl, by decide⟩ fun k => rfl
  have h2 := reads_look (reads_atom (regexRange_starts hi.1 false) (readAtom_range hi false)) true
  have h3 := reads_paren ((h1.comp reads_bar).comp h2) ⟨'$', _, rfl, by decide⟩
  have h4 := h.comp h3
  have e : keywordText t ident = t ++ '(' :: (['$'] ++ ['|'] ++ (['(', '?', if true then '!' else '='] ++ (regexRange ident false ++ [')'])) ++ [')']) := by simp [keywordText]
  rw [e]
  exact h4.congr fun f => rfl

structure Sound (e : PE) : Prop where
  reads : Reads e.regex.2 fun f => addAlts f e.alts
  ne : e.alts ≠ []
  one : e.regex.1 ≠ .alt → ∃ ps, e.alts = [ps]
  unit : e.regex.1 = .unit → e.isRep = false → ∃ x, e.alts = [[(x, false)]]

theorem Sound.seq {e : PE} (h : Sound e) : Reads (iso e.regex .seq) fun f => f.add (seqP e.regex.1 e.alts) := by
  by_cases hp : e.regex.1 = .alt
  · have : iso e.regex .seq = ['(', '?', ':'] ++ (e.regex.2 ++ [')']) := by simp [iso, hp, Prec.rank]
    rw [this]
    refine (reads_group h.reads).congr fun f => ?_
    rw [close_group h.ne, seqP, if_pos hp]
  · have : iso e.regex .seq = e.regex.2 := by
      unfold iso
      cases hq : e.regex.1 with
      | alt => exact absurd hq hp
      | seq => simp [Prec.rank]
      | unit => simp [Prec.rank]
    rw [this]
    obtain ⟨ps, hps⟩ := h.one hp
    refine h.reads.congr fun f => ?_
    rw [seqP, if_neg hp, hps]
    simp [addAlts]

theorem Sound.unitReads {e : PE} (h : Sound e) (hr : e.isRep = false) : Reads (iso e.regex .unit) fun f => f.add [(unitRe e.regex.1 e.alts, false)] := by
  by_cases hp : e.regex.1 = .unit
  · have : iso e.regex .unit = e.regex.2 := by simp [iso, hp]
    rw [this]
    obtain ⟨x, hx⟩ := h.unit hp hr
    refine h.reads.congr fun f => ?_
    rw [unitRe, if_pos hp, hx]
    rfl
  · have : iso e.regex .unit = ['(', '?', ':'] ++ (e.regex.2 ++ [')']) := by
      unfold iso
      cases hq : e.regex.1 with
      | alt => simp [Prec.rank]
      | seq => simp [Prec.rank]
      | unit => exact absurd hq hp
    rw [this]
    refine (reads_group h.reads).congr fun f => ?_
    rw [close_group h.ne, unitRe, if_neg hp]

theorem iso_alt (p : Prec × List Char) : iso p .alt = p.2 := by simp [iso, Prec.rank]

theorem sound : ∀ e : PE, e.Good → Sound e
  | .char inc exc, h => by
    refine ⟨?_, by simp [PE.alts], fun _ => ⟨_, rfl⟩, fun _ _ => ⟨_, rfl⟩⟩
    show Reads (charText inc exc) _
    rw [charText_eq]
    exact reads_atom (regexRange_starts h.1 _) (readAtom_range h _)
  | .lit s, h => by
    refine ⟨?_, by simp [PE.alts], fun _ => ⟨_, rfl⟩, fun hu _ => ?_⟩
    · exact reads_map reEsc Re.chr (fun c => reads_atom (esc_starts reEsc_escaper c) (readAtom_esc reEsc_escaper c)) s
    · have : s.length = 1 := by
        by_contra hc
        simp [PE.regex, hc] at hu
      obtain ⟨c, rfl⟩ := List.length_eq_one_iff.1 this
      exact ⟨_, rfl⟩
  | .and a b, h => by
    refine ⟨?_, by simp [PE.alts], fun _ => ⟨_, rfl⟩, fun hu => by simp [PE.regex] at hu⟩
    refine ((sound a h.1).seq.comp (sound b h.2).seq).congr fun f => ?_
    simp [PE.alts, addAlts, Frame.add]
  | .first a b, h => by
    have ha := sound a h.1
    have hb := sound b h.2
    refine ⟨?_, by simp [PE.alts, ha.ne], fun hu => by simp [PE.regex] at hu, fun hu => by simp [PE.regex] at hu⟩
    have := (ha.reads.comp reads_bar).comp hb.reads
    have e : (PE.first a b).regex.2 = a.regex.2 ++ ['|'] ++ b.regex.2 := by simp [PE.regex, iso_alt]
    rw [e]
    refine this.congr fun f => ?_
    exact (addAlts_append _ _ f ha.ne hb.ne).symm
  | .key lower upper ident, h => by
    refine ⟨?_, by simp [PE.alts], fun _ => ⟨_, rfl⟩, fun hu => by simp [PE.regex] at hu⟩
    have := reads_keyword (reads_map _ letter reads_letter (lower.zip upper)) h
    refine this.congr fun f => ?_
    simp [PE.alts, addAlts, Frame.add]
  | .orEmpty a, h => by
    have ha := sound a h
    refine ⟨?_, ha.ne, fun hu => by simp [PE.regex] at hu, fun hu => by simp [PE.regex] at hu⟩
    show Reads (iso a.regex .alt) _
    rw [iso_alt]
    exact ha.reads
  | .many e lo hi, h => by
    have he := sound e h.1
    by_cases h11 : lo = 1 ∧ hi = some 1
    · refine ⟨?_, by simp [PE.alts, h11], fun _ => ⟨[(unitRe e.regex.1 e.alts, false)], by simp only [PE.alts, if_pos h11]⟩, fun _ hr => by simp [PE.isRep] at hr⟩
      obtain ⟨rfl, rfl⟩ := h11
      show Reads (iso e.regex .unit ++ suffix 1 (some 1)) _
      have : suffix 1 (some 1) = [] := rfl
      rw [this, List.append_nil]
      refine (he.unitReads h.2.1).congr fun f => ?_
      simp [PE.alts, addAlts]
    · refine ⟨?_, by simp [PE.alts, h11], fun _ => ⟨[(.rep lo hi (unitRe e.regex.1 e.alts), true)], by simp only [PE.alts, if_neg h11]⟩, fun _ hr => by simp [PE.isRep] at hr⟩
      refine (reads_rep (he.unitReads h.2.1) h.2.2 h11).congr fun f => ?_
      simp only [PE.alts, if_neg h11, addAlts]
  | .opt e, h => by
    have he := sound e h.1
    refine ⟨?_, by simp [PE.alts], fun _ => ⟨_, rfl⟩, fun _ hr => by simp [PE.isRep] at hr⟩
    exact (reads_rep (he.unitReads h.2) (lo := 0) (hi := some 1) rfl (by simp)).congr fun f => rfl
  | .no e, h => by
    have he := sound e h
    refine ⟨?_, by simp [PE.alts], fun _ => ⟨_, rfl⟩, fun _ _ => ⟨_, rfl⟩⟩
    refine (reads_look he.reads true).congr fun f => ?_
    rw [close_look he.ne]
    rfl
  | .ahead e, h => by
    have he := sound e h
    refine ⟨?_, by simp [PE.alts], fun _ => ⟨_, rfl⟩, fun _ _ => ⟨_, rfl⟩⟩
    refine (reads_look he.reads false).congr fun f => ?_
    rw [close_look he.ne]
    rfl

/-- A text that is read completely compiles. -/
theorem compile_reads {t : List Char} {F : Frame → Frame} (h : Reads t F) (hk : (F ⟨.group, [], []⟩).close = r) : compile t = some r := by
  obtain ⟨m, hm, h⟩ := h
  have := h (t.length - m) ⟨.group, [], []⟩ [] []
  rw [List.append_nil, Nat.sub_add_cancel hm] at this
  rw [compile, this, ← hk]
  unfold goRead
  split <;> simp_all

theorem compile_good {e : PE} (h : e.Good) : compile e.regex.2 = some (closeAlts e.alts) :=
  compile_reads (sound e h).reads (close_group (sound e h).ne)

end EulerDB.Regex
