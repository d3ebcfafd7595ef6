/-
C88: a condition with LIKE as it is rewritten, written and read.
-/
import Verif.Like.Model

namespace EulerDB.Like

open EulerDB EulerDB.Clause EulerDB.Delta EulerDB.Whole

/-! ### The pattern -/

theorem encWords_chars {alnum : Char → Bool} {A : Aes.Block} : ∀ {ws rs : List (List Char)}, Fuzzy.encWords alnum A ws = .ok rs → ∀ r ∈ rs, '\\' ∉ r
  | [], rs, h, r, hr => by
    rw [Fuzzy.encWords] at h
    injection h with h
    subst h
    simp at hr
  | w :: ws, rs, h, r, hr => by
    rw [Fuzzy.encWords] at h
    split at h
    · cases hx : Fuzzy.encWords alnum A ws with
      | error e => simp [hx] at h
      | ok l =>
        simp only [hx, Except.ok.injEq] at h
        subst h
        rcases List.mem_cons.1 hr with rfl | hr
        · simp
        · exact encWords_chars hx r hr
    · split at h
      · cases h
      · rw [Fuzzy.fuzzyEncrypt_eq] at h
        simp only at h
        cases hx : Fuzzy.encWords alnum A ws with
        | error e => simp [hx] at h
        | ok l =>
          simp only [hx, Except.ok.injEq] at h
          subst h
          rcases List.mem_cons.1 hr with rfl | hr
          · intro hm
            obtain ⟨g, _, hg⟩ := List.mem_flatMap.1 hm
            exact (ct_chars hg).2.2.2 rfl
          · exact encWords_chars hx r hr

theorem joinPct_chars : ∀ {rs : List (List Char)}, (∀ r ∈ rs, '\\' ∉ r) → '\\' ∉ Fuzzy.joinPct rs
  | [], _ => by simp [Fuzzy.joinPct]
  | [w], h => by simpa [Fuzzy.joinPct] using h w (by simp)
  | w :: v :: r, h => by
    rw [Fuzzy.joinPct]
    · have ih := joinPct_chars (rs := v :: r) fun x hx => h x (by simp [hx])
      simp only [List.mem_append, List.mem_cons, not_or]
      exact ⟨h w (by simp), by decide, ih⟩
    · simp

theorem like_kept {c : Crypto} {key p q : String} (h : c.like key p = .ok q) : Format.kept q.toList = true := by
  unfold Crypto.like Fuzzy.likeRewrite at h
  cases hx : Fuzzy.encWords c.alnum (c.aes key) (Fuzzy.splitPct p.toList) with
  | error e => simp [hx, Except.map] at h
  | ok ws =>
    simp only [hx, Except.map, Except.ok.injEq] at h
    subst h
    rw [String.toList_ofList]
    exact Statement.kept_of fun hm => joinPct_chars (encWords_chars hx) hm

/-- The condition that is sent, and what it finds. -/
theorem like_sent {w : Writer} {res : List Char → Bool} {c : Crypto} {db : Db} {t : String} {tm : TableMeta ColMeta} (hn : Named w res tm)
    (ht : Dict.get? db t = some tm) {n p : String} (h : Searchable tm.columns n p) :
    ∃ b q, whereRw c db (.str t) "symmetric" "" (likeJson n p) = .ok (likeJson b q) ∧ Bare w res b ∧ Format.kept q.toList = true ∧
      ∀ row brow, Nulls.Keeps c tm.columns row brow → matching b q brow = some (found c db t n p row) := by
  obtain ⟨cm, hc, hpl, hen⟩ := h
  have hcj : colOfJson tm.columns (.str n) = .ok cm := getItem_ok.2 hc
  have hw := whereCols_ok ht
  by_cases hp : cm.plaintext = true
  · refine ⟨n, p, ?_, hn.plain n cm hc hp, hpl hp, ?_⟩
    · simp (decide := true) only [likeJson, whereRw, whereDict, if_true, if_false, hw, condCol, hcj, hp]
    · intro row brow hk
      unfold found matching
      rw [ht, Option.bind_some, hc]
      cases hv : Dict.get? row n with
      | none => rw [hk.null n (mem_keys hc) hv n (Nulls.target_plain hc hp)]; rfl
      | some v =>
        rw [hk.holds.plain n v cm hv hc hp]
        simp only [Option.map_some, hp, if_true]
        cases v <;> rfl
  · have hp' : cm.plaintext = false := by simpa using hp
    obtain ⟨⟨b, hb⟩, hwords⟩ := hen hp'
    obtain ⟨q, hq⟩ := (Fuzzy.C08_pattern_accepted_iff c.alnum (c.aes cm.key) p.toList).2 hwords
    have hlike : c.like cm.key p = .ok (String.ofList q) := by rw [Crypto.like, hq]; rfl
    refine ⟨b, String.ofList q, ?_, hn.enc n cm hc hp' "fuzzy" b (Dict.mem_of_get? hb), like_kept hlike, ?_⟩
    · simp (decide := true) [likeJson, whereRw, whereDict, hw, condCol, hcj, hp', Json.lit, getItem_ok.2 hb, hlike, rewriteLeaf, Except.map]
    · intro row brow hk
      unfold found matching
      rw [ht, Option.bind_some, hc]
      cases hv : Dict.get? row n with
      | none => rw [hk.null n (mem_keys hc) hv b (Nulls.target_enc hc hp' hb)]; rfl
      | some v =>
        obtain ⟨y, hy, hg⟩ := hk.holds.fuzzy n v cm b hv hc hp' hb
        rw [Crypto.fuzzy, String.toList_ofList] at hy
        rw [hg]
        cases he : Fuzzy.fuzzyEncrypt c.alnum (c.aes cm.key) v.str with
        | error e => simp [he, Except.map] at hy
        | ok e =>
          simp only [he, Except.map, Except.ok.injEq] at hy
          subst hy
          simp only [Option.map_some, hp', Bool.false_eq_true, if_false, hq, likeVal, String.toList_ofList]
          rw [he]

/-! ### The text -/

def likeText (b q : String) : List Char := b.toList ++ ' ' :: ("LIKE".toList ++ ' ' :: Format.quoted '\'' q.toList)

theorem likeText_toks {w : Writer} {res : List Char → Bool} {b q : String} (hb : Bare w res b) (hq : Format.kept q.toList = true) :
    Cut (likeText b q) [.word b.toList, .word "LIKE".toList, .str q.toList] := by
  have h1 : Name "LIKE".toList := by decide
  simpa [likeText] using (cut_word hb.name).blank ((cut_word h1).blank (cut_lit hq))

theorem like_good {P : Proxy} {res : List Char → Bool} {b q : String} (hb : Bare P.w res b) (hq : Format.kept q.toList = true) (n p : Nat) :
    Statement.dispatch P.leaves (n + 1) (likeJson b q) p = .ok [.leaf (String.ofList (likeText b q))] := by
  refine Statement.dispatch_good (tx := fun _ => String.ofList (likeText b q)) ⟨?_, ?_⟩ n p
  · simp (decide := true) [likeJson, Statement.Plain, Statement.hasAny, Statement.hasKey, Statement.stmtKeys, Statement.orderedClauses,
        Statement.unorderedClauses, Dict.get?_cons]
  · have hr := rhs_text (P := P.w) (r := .lit q) hq 32
    have hi : infixOf "like" = some (32, "LIKE".toList) := by decide
    have : exText P.w (likeJson b q) 400 = .ok (likeText b q) := by
      rw [likeJson, exText, exDict, if_neg (by decide), if_neg (by decide), exOp, hi]
      simp only [exInfix, exTexts, exText, nameText_bare hb]
      rw [Rhs.json] at hr
      simp only [hr, Except.map]
      rfl
    simp [Proxy.leaves, this, Except.map]

def whereToksL (b q : String) : List Statement.Tok := [.kw "WHERE", .leaf (String.ofList (likeText b q))]
def whereMToksL (b q : String) : List MTok := [.word "WHERE".toList, .word b.toList, .word "LIKE".toList, .str q.toList]

theorem piecesL {w : Writer} {res : List Char → Bool} {b q : String} (hb : Bare w res b) (hq : Format.kept q.toList = true) :
    Pieces (whereToksL b q) (whereMToksL b q) := by
  have h1 := Pieces.one (t := .leaf (String.ofList (likeText b q))) (ts := [.word b.toList, .word "LIKE".toList, .str q.toList])
    (by simpa [Statement.spell.one] using likeText_toks hb hq) (by simp)
  exact (Pieces.kw (k := "WHERE") (by decide)).append h1

theorem pWhereL_read {w : Writer} {res : List Char → Bool} {b q : String} (hb : Bare w res b) : pWhereL res (whereMToksL b q) = some (b, q) := by
  have h1 : isKw "WHERE" "WHERE".toList = true := by decide
  have h2 : isKw "LIKE" "LIKE".toList = true := by decide
  simp only [whereMToksL, pWhereL, h1, h2, hb.res, Bool.not_false, Bool.and_self, if_true, String.ofList_toList]

theorem disj_stops {res : List Char → Bool} (ex : List MTok → Option (MEx × List MTok)) {b q w : List Char} (hb : res b = false) (ha : isKw "AND" w = false)
    (ho : isKw "OR" w = false) : disj res ex [.word b, .word w, .str q] = some (.name (String.ofList b), [.word w, .str q]) := by
  simp [disj, conj, compar, prim, hb, cmpTail, andTail, orTail, ha, ho]

/-- The reader of C71 does not know LIKE. -/
theorem pWhere_none {w : Writer} {res : List Char → Bool} {b q : String} (hb : Bare w res b) : pWhere res (whereMToksL b q) = none := by
  rw [whereMToksL, pWhere, pKw_self "WHERE" (by decide)]
  · simp only [List.length_cons, expr]
    rw [disj_stops _ hb.res (by decide) (by decide)]
  · simp

end EulerDB.Like
