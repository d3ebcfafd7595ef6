import Verif.Table.Default
import Verif.Table.Props
import Verif.Aes.Lemmas

/-!
# C65: a column left out of an INSERT takes its declared default
-/

namespace EulerDB.Table

open EulerDB EulerDB.Delta

/-! ## Vocabulary of the statements -/

/-- What MySQL makes of the operand of a DEFAULT clause: the value (`V`), or `none` for a syntax error.  The laws are the facts used: NULL, whose blanks do not
matter, and that `=` occurs in no literal and no function name; it needs quotes or an expression in parentheses around it. -/
structure Mysql where
  V : Type
  null : V
  text : String → V
  num : Int → V
  expr : String → Option V
  /-- Value of a column declared without DEFAULT. -/
  implicit : V
  operand : String → Option V
  null_law : operand "NULL " = some null
  eq_law : ∀ t : String, '=' ∈ t.toList → '\'' ∉ t.toList → '"' ∉ t.toList → '(' ∉ t.toList → operand t = none

/-- The default the user asked for. -/
def Mysql.asked (M : Mysql) : Written → Option M.V
  | .null => some M.null
  | .word w => M.operand w
  | .text s => some (M.text s)
  | .num z => some (M.num z)
  | .bool b => some (M.num (if b then 1 else 0))
  | .expr e => M.expr e

/-- `t` ends a column definition with the DEFAULT value `v` (`none`: MySQL rejects it). -/
inductive Clause (M : Mysql) : String → Option M.V → Prop where
  | absent : Clause M "" (some M.implicit)
  | given (u : String) : Clause M (" DEFAULT " ++ u) (M.operand u)

/-- The plaintext column declared with DEFAULT `w` is created with default `v`. -/
def PlainDefault (M : Mysql) (c : ColDef) (v : Option M.V) : Prop :=
  ∃ b m t, plainCol c = .ok ([b], m) ∧ b.rest = nullText c ++ pkText c ++ t ∧ Clause M t v

/-! ## Plaintext columns -/

theorem plainCol_of {c : ColDef} {t : String} (h : plainDefault c = .ok t) :
    ∃ b m, plainCol c = .ok ([b], m) ∧ b.rest = nullText c ++ pkText c ++ t := by
  simp only [plainCol, h]
  exact ⟨_, _, rfl, rfl⟩

theorem plainCol_raises {c : ColDef} {e : PyErr} (h : plainDefault c = .error e) : plainCol c = .error e := by
  simp only [plainCol, h]

/-- **C65 for plaintext columns, NULL and bare words.** The backend column has the default asked for. -/
theorem C65_plain_partial (M : Mysql) (c : ColDef) (w : Written) (hw : w = .null ∨ ∃ x, w = .word x) (h : c.default = w.parsed) :
    PlainDefault M c (M.asked w) := by
  rcases hw with rfl | ⟨x, rfl⟩
  · obtain ⟨b, m, h1, h2⟩ := plainCol_of (c := c) (t := " DEFAULT NULL ") (by simp [plainDefault, h, Written.parsed])
    refine ⟨b, m, _, h1, h2, ?_⟩
    have := Clause.given (M := M) "NULL "
    rw [M.null_law] at this
    exact this
  · obtain ⟨b, m, h1, h2⟩ := plainCol_of (c := c) (t := " DEFAULT " ++ x) (by simp [plainDefault, h, Written.parsed])
    exact ⟨b, m, _, h1, h2, .given x⟩

/-- **C65 fails for strings, numbers, TRUE and expressions:** the rewriting of the column raises TypeError, whatever else is declared. -/
theorem C65_fails_literal (c : ColDef) (w : Written)
    (hw : (∃ s, w = .text s) ∨ (∃ z, w = .num z ∧ z ≠ 0) ∨ w = .bool true ∨ ∃ e, w = .expr e) (h : c.default = w.parsed) :
    plainCol c = .error .typeError := by
  apply plainCol_raises
  rcases hw with ⟨s, rfl⟩ | ⟨z, rfl, hz⟩ | rfl | ⟨e, rfl⟩ <;> simp_all [plainDefault, Written.parsed]

/-- **C65 fails for 0 and FALSE:** the clause is dropped; the backend column has no DEFAULT at all. -/
theorem C65_fails_zero (c : ColDef) (w : Written) (hw : w = .num 0 ∨ w = .bool false) (h : c.default = w.parsed) :
    ∃ b m, plainCol c = .ok ([b], m) ∧ b.rest = nullText c ++ pkText c := by
  obtain ⟨b, m, h1, h2⟩ := plainCol_of (c := c) (t := "") (by rcases hw with rfl | rfl <;> simp [plainDefault, h, Written.parsed])
  exact ⟨b, m, h1, by simpa using h2⟩

/-- The defaults a plaintext column can be declared with are exactly NULL, bare words, and the dropped 0 and FALSE. -/
theorem C65_plain_accepted_iff (c : ColDef) (w : Written) (h : c.default = w.parsed) :
    (plainCol c).isOk = true ↔ w = .null ∨ (∃ x, w = .word x) ∨ w = .num 0 ∨ w = .bool false := by
  rw [plainCol_isOk, h]
  cases w with
  | num z => by_cases hz : z = 0 <;> simp [Written.parsed, hz]
  | bool b => cases b <;> simp [Written.parsed]
  | _ => simp [Written.parsed]

/-! ## Encrypted columns -/

/-- Base64 text holds `=` unless the number of bytes is a multiple of three. -/
theorem b64encode_pad : ∀ bs : List UInt8, bs.length % 3 ≠ 0 → '=' ∈ Aes.b64encode bs
  | [], h => by simp at h
  | [a], _ => by simp [Aes.b64encode]
  | [a, b], _ => by simp [Aes.b64encode]
  | a :: b :: c :: r, h => by
    have : r.length % 3 ≠ 0 := by simp only [List.length_cons] at h; omega
    simp [Aes.b64encode, b64encode_pad r this]

theorem b64Char_plain : ∀ n : Fin 64, Aes.b64Char n.1 ≠ '"' ∧ Aes.b64Char n.1 ≠ '(' := by decide +kernel

/-- Base64 text holds no quotes and no parenthesis. -/
theorem b64encode_plain (bs : List UInt8) : '\'' ∉ Aes.b64encode bs ∧ '"' ∉ Aes.b64encode bs ∧ '(' ∉ Aes.b64encode bs := by
  refine ⟨fun h => ?_, fun h => ?_, fun h => ?_⟩ <;> rcases Aes.b64encode_mem bs _ h with h | ⟨n, hn, h⟩
  · exact absurd h (by decide)
  · exact (Aes.b64Char_facts ⟨n, hn⟩).2.2.2.2.2.2 h.symm
  · exact absurd h (by decide)
  · exact (b64Char_plain ⟨n, hn⟩).1 h.symm
  · exact absurd h (by decide)
  · exact (b64Char_plain ⟨n, hn⟩).2 h.symm

theorem ct_rejected (M : Mysql) (A : Aes.Block) (s : List Char) (h : Aes.blocks s % 3 ≠ 0) : M.operand (String.ofList (Aes.ct A s)) = none := by
  apply M.eq_law
  · rw [String.toList_ofList]
    apply b64encode_pad
    have hl : (Aes.ecbBlocks A.E (Aes.blocks s) (Aes.zeroPad (Aes.utf8 s))).length = 16 * Aes.blocks s :=
      Aes.ecbBlocks_length A.E A.E_length _ _ (Aes.zeroPad_length _)
    omega
  all_goals rw [String.toList_ofList]
  · exact (b64encode_plain _).1
  · exact (b64encode_plain _).2.1
  · exact (b64encode_plain _).2.2

/-- The default takes up to 32 bytes, or more generally a number of 16-byte blocks that three does not divide.  NULL always does; so does every function
name MySQL allows here. -/
def Short (w : Written) : Prop := ∀ d r, w.parsed = some d → d.raw = some r → Aes.blocks r % 3 ≠ 0

theorem elemCols_symmetric {env : Env} {o : EncOpt} {c : ColDef} {i : Nat} {l : List (String × BCol)} (h : cipherCols env o c i = .ok l) :
    ∃ e ∈ l, e.1 = "symmetric" ∧ ∃ d, cipherDefault env "symmetric" o c = .ok d ∧ e.2.rest = nullText c ++ pkText c ++ d := by
  have hs : "symmetric" ∈ l.map Prod.fst := by rw [(cipherCols_spec h).1]; simp [wanted]
  obtain ⟨e, he, hk⟩ := List.mem_map.1 hs
  refine ⟨e, he, hk, ?_⟩
  unfold cipherCols at h
  split at h
  · cases h
  split at h
  · cases h
  rename_i l1 h1
  split at h
  · cases h
  rename_i l2 h2
  split at h
  · cases h
  rename_i l3 h3
  split at h
  · cases h
  rename_i l4 h4
  cases h
  simp only [List.mem_append] at he
  rcases he with ((he | he) | he) | he
  · obtain ⟨d, hd, hr⟩ := elemCols_rest h1 e he
    exact ⟨d, hd, by simpa [hk] using hr⟩
  · exact absurd ((optCol_rest h2 e he).1.symm.trans hk) (by decide)
  · exact absurd ((optCol_rest h3 e he).1.symm.trans hk) (by decide)
  · exact absurd ((optCol_rest h4 e he).1.symm.trans hk) (by decide)

/-- **C65 fails for every default of an encrypted column that the proxy does not drop.** The rewriting raises, or the symmetric backend column is declared with
a ciphertext outside quotes, which MySQL rejects. -/
theorem C65_fails_encrypted (M : Mysql) (env : Env) (aes : String → Aes.Block) (rest : String → EncOpt → DefaultVal → Except PyErr String)
    (he : env.encDefault = encDefault aes rest) (o : EncOpt) (c : ColDef) (i : Nat) (w : Written) (h : c.default = w.parsed) (hp : w.parsed ≠ none)
    (hs : Short w) :
    (∃ e, cipherCols env o c i = .error e) ∨
    ∃ l e t, cipherCols env o c i = .ok l ∧ e ∈ l ∧ e.2.rest = nullText c ++ pkText c ++ t ∧ Clause M t none := by
  cases hc : cipherCols env o c i with
  | error e => exact .inl ⟨e, rfl⟩
  | ok l =>
    obtain ⟨e, hm, _, t, ht, hr⟩ := elemCols_symmetric hc
    refine .inr ⟨l, e, t, rfl, hm, hr, ?_⟩
    obtain ⟨d, hd⟩ := Option.ne_none_iff_exists'.1 hp
    simp only [cipherDefault, h, hd, he, encDefault, if_true, aesDefault] at ht
    cases hraw : d.raw with
    | none => simp [hraw] at ht
    | some r =>
      simp only [hraw, Aes.encrypt_eq, Except.ok.injEq] at ht
      subst ht
      have := Clause.given (M := M) (String.ofList (Aes.ct (aes o.key) r))
      rwa [ct_rejected M _ _ (hs d r hd hraw)] at this

/-- **C65 fails for an encrypted column with DEFAULT NULL:** not NULL but the encryption of the word `NULL` is declared, under any key. -/
theorem C65_fails_encrypted_null (M : Mysql) (A : Aes.Block) :
    ∃ t, aesDefault A .null = .ok t ∧ t ≠ "NULL " ∧ M.operand t = none ∧ Aes.decrypt A t.toList = .ok "NULL ".toList := by
  refine ⟨String.ofList (Aes.ct A "NULL ".toList), by simp [aesDefault, DefaultVal.raw, Aes.encrypt_eq], ?_, ?_, ?_⟩
  · intro h
    have h1 := Aes.ct_length A "NULL ".toList
    have h2 : Aes.ct A "NULL ".toList = "NULL ".toList := by simpa only [String.toList_ofList] using congrArg String.toList h
    rw [h2] at h1
    revert h1; decide
  · exact ct_rejected M A _ (by decide)
  · rw [String.toList_ofList, Aes.decrypt_ct]
    decide

/-- **C65 fails for strings, numbers, TRUE and expressions on an encrypted column:** the rewriting raises, whatever the type, the options and the keys. -/
theorem C65_fails_encrypted_literal (env : Env) (aes : String → Aes.Block) (rest : String → EncOpt → DefaultVal → Except PyErr String)
    (he : env.encDefault = encDefault aes rest) (o : EncOpt) (c : ColDef) (i : Nat) (h : c.default = some .otherwise) :
    ∃ e, cipherCols env o c i = .error e := by
  cases hc : cipherCols env o c i with
  | error e => exact ⟨e, rfl⟩
  | ok l =>
    obtain ⟨_, _, _, t, ht, _⟩ := elemCols_symmetric hc
    simp [cipherDefault, h, he, encDefault, aesDefault, DefaultVal.raw] at ht

/-- **C65, what does hold for encrypted columns:** without DEFAULT, no cipher column has one. -/
theorem C65_encrypted_absent_partial {env : Env} {o : EncOpt} {c : ColDef} {i : Nat} {l : List (String × BCol)} (hd : c.default = none)
    (h : cipherCols env o c i = .ok l) : ∀ e ∈ l, e.2.rest = nullText c ++ (if e.1 = "symmetric" then pkText c else "") := by
  intro e he
  obtain ⟨d, hr, k, hk⟩ := C21_primary_key_column h e he
  simp only [cipherDefault, hd, Except.ok.injEq] at hk
  subst hk
  simpa using hr

theorem rewriteCols_mem {env : Env} {opts : Dict String EncOpt} {i : Nat} {cs : List ColDef} {bs : List BCol} {kv : Dict String ColMeta}
    {bs' : List BCol} {kv' : Dict String ColMeta} (h : rewriteCols env opts i cs bs kv = .ok (bs', kv')) :
    (∀ b ∈ bs, b ∈ bs') ∧ ∀ c ∈ cs, ∃ k b m j, rewriteCol env opts k c = .ok (b, m, j) ∧ ∀ x ∈ b, x ∈ bs' := by
  induction cs generalizing i bs kv with
  | nil => simp only [rewriteCols, Except.ok.injEq, Prod.mk.injEq] at h; exact ⟨by simp [h.1], by simp⟩
  | cons c r ih =>
    simp only [rewriteCols] at h
    split at h
    · cases h
    rename_i b m j hc
    obtain ⟨h1, h2⟩ := ih h
    refine ⟨fun x hx => h1 x (List.mem_append_left _ hx), fun c' hc' => ?_⟩
    rcases List.mem_cons.1 hc' with rfl | hc'
    · exact ⟨i, b, m, j, hc, fun x hx => h1 x (List.mem_append_right _ hx)⟩
    · exact h2 c' hc'

/-- **C65 fails for whole statements:** a CREATE TABLE with a default that is not dropped on an encrypted column raises, or is recorded in the metadata and sent
with a column definition that MySQL rejects. -/
theorem C65_fails_statement (M : Mysql) (env : Env) (aes : String → Aes.Block) (rest : String → EncOpt → DefaultVal → Except PyErr String)
    (he : env.encDefault = encDefault aes rest) (s : State ColMeta) (db : String) (opts : Dict String EncOpt) (ct : CreateTable) (c : ColDef)
    (hc : c ∈ ct.columns) (o : EncOpt) (ho : Dict.get? opts c.name = some o) (w : Written) (h : c.default = w.parsed) (hp : w.parsed ≠ none) (hs : Short w) :
    (∃ e, createTable env s db opts ct = (s, .error e)) ∨
    ∃ (r : Rewritten) (b : BCol) (t : String), createTable env s db opts ct = (updateDelta s db ct.name r.meta_, .ok r.text) ∧ b ∈ r.bcols ∧
      b.rest = nullText c ++ pkText c ++ t ∧ Clause M t none := by
  unfold createTable
  cases hr : rewriteTable env s.meta db opts ct with
  | error e => exact .inl ⟨e, rfl⟩
  | ok r =>
    unfold rewriteTable at hr
    split at hr
    · cases hr
    rename_i bs kv hcs
    split at hr
    · cases hr
    cases hr
    obtain ⟨k, b, m, j, hcol, hb⟩ := (rewriteCols_mem hcs).2 c hc
    unfold rewriteCol at hcol
    rw [ho] at hcol
    simp only at hcol
    rcases C65_fails_encrypted M env aes rest he o c k w h hp hs with ⟨e, hx⟩ | ⟨l, e, t, hl, hel, hrest, hcl⟩
    · simp [hx] at hcol
    · simp only [hl, Except.ok.injEq, Prod.mk.injEq] at hcol
      refine .inr ⟨_, e.2, t, rfl, ?_, hrest, hcl⟩
      apply hb
      rw [← hcol.1]
      exact List.mem_map_of_mem hel

/-! ## Examples -/

/-- A small MySQL for the examples: only NULL and integers without sign are read. -/
def demoMysql : Mysql where
  V := Option String
  null := none
  text s := some s
  num z := some (String.ofList (Text.intStr z))
  expr e := some (some e)
  implicit := none
  operand t := if '=' ∈ t.toList then none else if t = "NULL " then some none else some (some t)
  null_law := by decide
  eq_law := by intro t h _ _ _; simp [h]

example : PlainDefault demoMysql ⟨"a", "int", .none, none, false, false, some .null, none⟩ (some none) :=
  C65_plain_partial demoMysql _ .null (.inl rfl) rfl

example : Short .null := by
  intro d r hd hr
  cases hd
  cases hr
  decide

example : Short (.word "CURRENT_TIMESTAMP") := by
  intro d r hd hr
  cases hd
  cases hr
  decide

end EulerDB.Table
