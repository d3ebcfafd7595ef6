import Verif.Web.Connect

/-! # C36: which pool serves a request -/

namespace EulerDB.Web

open EulerDB EulerDB.Text

theorem get_foldl (h : List Conn) (p : Pools) (k : Str) :
    Dict.get? (h.foldl (fun p c => (connect p c).1) p) k = (Dict.get? p k).or (h.find? fun c => dbKey c = k) := by
  induction h generalizing p with
  | nil => simp
  | cons c h ih =>
    rw [List.foldl_cons, ih, List.find?_cons]
    unfold connect
    split
    · rename_i hn
      simp only [Dict.get?_set]
      by_cases hk : k = dbKey c
      · subst hk; simp [hn]
      · have : ¬ dbKey c = k := fun e => hk e.symm
        simp [hk, this]
    · rename_i o ho
      by_cases hk : dbKey c = k
      · subst hk; simp [ho]
      · simp [hk]

/-- Exactly which pool serves a request: the one opened by the first request of the history with the same key, or a new one. -/
theorem C36_served_by_first (h : List Conn) (c : Conn) : served h c = (h.find? fun o => dbKey o = dbKey c).getD c := by
  have := get_foldl h [] (dbKey c)
  unfold served connect
  rw [pools, this]
  cases h.find? fun o => dbKey o = dbKey c <;> simp

/-- A request is always served with a pool of its own key. -/
theorem C36_same_key (h : List Conn) (c : Conn) : dbKey (served h c) = dbKey c := by
  rw [C36_served_by_first]
  cases hf : h.find? fun o => dbKey o = dbKey c with
  | none => rfl
  | some o => simpa using List.find?_some hf

/-- The key does not determine its parts, but three of the four parts and the key determine the fourth. -/
theorem C36_parts_partial (a b : Conn) (hk : dbKey a = dbKey b) :
    (a.port = b.port → a.db = b.db → a.user = b.user → a.host = b.host) ∧
    (a.host = b.host → a.db = b.db → a.user = b.user → a.port = b.port) ∧
    (a.host = b.host → a.port = b.port → a.user = b.user → a.db = b.db) ∧
    (a.host = b.host → a.port = b.port → a.db = b.db → a.user = b.user) := by
  unfold dbKey at hk
  refine ⟨?_, ?_, ?_, ?_⟩ <;> intro h1 h2 h3 <;> rw [h1, h2, h3] at hk
  · simpa [List.append_assoc] using hk
  · exact natStr_inj (by simpa [List.append_assoc] using hk)
  · simpa [List.append_assoc] using hk
  · simpa [List.append_assoc] using hk

/-- A host without digits (no IP address) and a database that does not begin with a digit. -/
def Usual (c : Conn) : Prop := (∀ ch ∈ c.host, ch.isDigit = false) ∧ ∃ ch r, c.db = ch :: r ∧ ch.isDigit = false

theorem digits_cancel {a b x y : Str} (ha : ∀ c ∈ a, c.isDigit = true) (hb : ∀ c ∈ b, c.isDigit = true)
    (hx : ∃ ch r, x = ch :: r ∧ ch.isDigit = false) (hy : ∃ ch r, y = ch :: r ∧ ch.isDigit = false) (h : a ++ x = b ++ y) : a = b ∧ x = y := by
  induction a generalizing b with
  | nil =>
    cases b with
    | nil => exact ⟨rfl, h⟩
    | cons c b =>
      obtain ⟨ch, r, rfl, hd⟩ := hx
      simp only [List.nil_append, List.cons_append, List.cons.injEq] at h
      rw [h.1, hb c (by simp)] at hd; cases hd
  | cons c a ih =>
    cases b with
    | nil =>
      obtain ⟨ch, r, rfl, hd⟩ := hy
      simp only [List.nil_append, List.cons_append, List.cons.injEq] at h
      rw [← h.1, ha c (by simp)] at hd; cases hd
    | cons d b =>
      simp only [List.cons_append, List.cons.injEq] at h
      obtain ⟨h1, h2⟩ := ih (b := b) (fun c hc => ha c (by simp [hc])) (fun c hc => hb c (by simp [hc])) h.2
      exact ⟨by rw [h.1, h1], h2⟩

theorem host_cancel {a b : Str} {m n : Nat} {x y : Str} (ha : ∀ c ∈ a, c.isDigit = false) (hb : ∀ c ∈ b, c.isDigit = false)
    (h : a ++ (natStr m ++ x) = b ++ (natStr n ++ y)) : a = b ∧ natStr m ++ x = natStr n ++ y := by
  induction a generalizing b with
  | nil =>
    cases b with
    | nil => exact ⟨rfl, h⟩
    | cons c b =>
      obtain ⟨ch, r, e, hd⟩ := natStr_head m
      rw [e] at h
      simp only [List.nil_append, List.cons_append, List.cons.injEq] at h
      rw [h.1, hb c (by simp)] at hd; cases hd
  | cons c a ih =>
    cases b with
    | nil =>
      obtain ⟨ch, r, e, hd⟩ := natStr_head n
      rw [e] at h
      simp only [List.nil_append, List.cons_append, List.cons.injEq] at h
      rw [← h.1, ha c (by simp)] at hd; cases hd
    | cons d b =>
      simp only [List.cons_append, List.cons.injEq] at h
      obtain ⟨h1, h2⟩ := ih (b := b) (fun c hc => ha c (by simp [hc])) (fun c hc => hb c (by simp [hc])) h.2
      exact ⟨by rw [h.1, h1], h2⟩

/-- With usual names the key determines host and port, so a request is never served from another server. -/
theorem C36_same_server_partial (h : List Conn) (c : Conn) (hc : Usual c) (hh : ∀ o ∈ h, Usual o) :
    (served h c).host = c.host ∧ (served h c).port = c.port := by
  have hk := C36_same_key h c
  have hu : Usual (served h c) := by
    rw [C36_served_by_first]
    cases hf : h.find? fun o => dbKey o = dbKey c with
    | none => exact hc
    | some o => exact hh o (List.mem_of_find?_eq_some hf)
  unfold dbKey at hk
  simp only [List.append_assoc] at hk
  obtain ⟨h1, h2⟩ := host_cancel hu.1 hc.1 hk
  have ex : ∀ o : Conn, Usual o → ∃ ch r, o.db ++ o.user = ch :: r ∧ ch.isDigit = false := by
    rintro o ⟨_, ch, r, e, hd⟩
    exact ⟨ch, r ++ o.user, by rw [e]; rfl, hd⟩
  obtain ⟨h3, _⟩ := digits_cancel (fun _ hx => natStr_digit hx) (fun _ hx => natStr_digit hx) (ex _ hu) (ex _ hc) h2
  exact ⟨h1, natStr_inj h3⟩

/-- If moreover all requests for one server that share a key agree on database and password (for instance because one application with one account
uses the proxy), a request is served with its own credentials. -/
theorem C36_own_credentials_partial (h : List Conn) (c : Conn) (hc : Usual c) (hh : ∀ o ∈ h, Usual o)
    (hs : ∀ o ∈ h, dbKey o = dbKey c → o.db = c.db ∧ o.password = c.password) : served h c = c := by
  obtain ⟨h1, h2⟩ := C36_same_server_partial h c hc hh
  have hk := C36_same_key h c
  have : (served h c).db = c.db ∧ (served h c).password = c.password := by
    have e := C36_served_by_first h c
    cases hf : h.find? fun o => dbKey o = dbKey c with
    | none => rw [hf] at e; rw [e]; simp
    | some o =>
      rw [hf] at e
      rw [e]
      exact hs o (List.mem_of_find?_eq_some hf) (by simpa using List.find?_some hf)
  have h4 := (C36_parts_partial _ _ hk).2.2.2 h1 h2 this.1
  generalize served h c = s at *
  cases s; cases c; simp_all

/-- The first request for a key is served with its own credentials. -/
theorem C36_first_request (h : List Conn) (c : Conn) (hn : ∀ o ∈ h, dbKey o ≠ dbKey c) : served h c = c := by
  rw [C36_served_by_first, List.find?_eq_none.2 (by simpa using hn)]; rfl

/-- The property fails for every account: whatever password a later request for it carries, it is served with the connection opened with the first
password. -/
theorem C36_fails_password (c : Conn) (p : Str) : served [c] { c with password := p } = c := by
  rw [C36_served_by_first]
  have : dbKey { c with password := p } = dbKey c := rfl
  simp [this]

/-- It fails for databases and users: a request for database `d` as user `x ++ u` is served from database `d ++ x` as user `u`. -/
theorem C36_fails_ambiguous (host d x u p q : Str) (port : Nat) : served [⟨host, port, d ++ x, u, p⟩] ⟨host, port, d, x ++ u, q⟩ = ⟨host, port, d ++ x, u, p⟩ := by
  rw [C36_served_by_first]
  simp [dbKey, List.append_assoc]

/-- It fails for servers: host "h1", port 23 and host "h", port 123 share one pool. -/
theorem C36_fails_server (d u p q : Str) : served [⟨['h', '1'], 23, d, u, p⟩] ⟨['h'], 123, d, u, q⟩ = ⟨['h', '1'], 23, d, u, p⟩ := by
  rw [C36_served_by_first]
  have : dbKey ⟨['h', '1'], 23, d, u, p⟩ = dbKey ⟨['h'], 123, d, u, q⟩ := by
    have e1 : natStr 23 = ['2', '3'] := by decide
    have e2 : natStr 123 = ['1', '2', '3'] := by decide
    simp [dbKey, e1, e2]
  simp [this]

/-- Two requests with the usual names, for the same account and for different ones. -/
example : let a : Conn := ⟨"db.local".toList, 3306, "points".toList, "root".toList, "secret".toList⟩
    let b : Conn := ⟨"db.local".toList, 3306, "sales".toList, "root".toList, "other".toList⟩
    Usual a ∧ Usual b ∧ served [a, b] a = a ∧ served [a, b] b = b ∧ served [a] { a with password := [] } = a := by
  have ha : Usual ⟨"db.local".toList, 3306, "points".toList, "root".toList, "secret".toList⟩ := ⟨by decide, 'p', "oints".toList, by decide, by decide⟩
  have hb : Usual ⟨"db.local".toList, 3306, "sales".toList, "root".toList, "other".toList⟩ := ⟨by decide, 's', "ales".toList, by decide, by decide⟩
  refine ⟨ha, hb, by decide, by decide, C36_fails_password _ _⟩

end EulerDB.Web
