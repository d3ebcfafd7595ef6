import Verif.Pool.Lemmas

/-! # C37, C38, C53: limits, ownership and waiting in the pool -/

namespace EulerDB.Pool

open EulerDB

/-! ## The limits (C37) -/

/-- The number of connections that are handed out. -/
def inUse (s : St) : Nat := s.ded.length + s.cache.length + s.orphans.length

theorem decShare_length (c : Nat) (l : List Shared) : (decShare c l).length = l.length := by simp [decShare]

theorem sort_length (tx : Nat → Bool) (l : List Shared) : (sortShared tx l).length = l.length := (sort_perm tx l).length_eq

theorem shareLeast_cache (p : Cfg) (s : St) : (shareLeast p s).1.cache.length = s.cache.length := by
  unfold shareLeast
  have := sort_length s.tx s.cache
  cases hs : sortShared s.tx s.cache with
  | nil => rfl
  | cons o r =>
    rw [hs] at this
    simp only
    split
    · simpa using this
    · simpa using this

theorem shareLeast_same (p : Cfg) (s : St) :
    (shareLeast p s).1.ded = s.ded ∧ (shareLeast p s).1.connections = s.connections ∧ (shareLeast p s).1.orphans = s.orphans ∧
      (shareLeast p s).1.idle = s.idle ∧ (shareLeast p s).1.tx = s.tx := by
  unfold shareLeast
  split
  · simp
  · split <;> simp

theorem cacheCon_same (p : Cfg) (c : Nat) (s : St) : (cacheCon p c s).ded = s.ded ∧ (cacheCon p c s).cache = s.cache ∧ (cacheCon p c s).orphans = s.orphans ∧
    (cacheCon p c s).shh = s.shh ∧ (cacheCon p c s).connections = s.connections - 1 := by
  unfold cacheCon
  split <;> simp

theorem cacheCon_ded (p : Cfg) (c : Nat) (s : St) : (cacheCon p c s).ded = s.ded := (cacheCon_same p c s).1
theorem cacheCon_cache (p : Cfg) (c : Nat) (s : St) : (cacheCon p c s).cache = s.cache := (cacheCon_same p c s).2.1
theorem cacheCon_orphans (p : Cfg) (c : Nat) (s : St) : (cacheCon p c s).orphans = s.orphans := (cacheCon_same p c s).2.2.1
theorem cacheCon_shh (p : Cfg) (c : Nat) (s : St) : (cacheCon p c s).shh = s.shh := (cacheCon_same p c s).2.2.2.1
theorem cacheCon_connections (p : Cfg) (c : Nat) (s : St) : (cacheCon p c s).connections = s.connections - 1 := (cacheCon_same p c s).2.2.2.2

theorem unshare_cache_le (p : Cfg) (c : Nat) (s : St) : (unshare p c s).cache.length ≤ s.cache.length := by
  unfold unshare
  simp only
  split
  · simp [decShare]
  · split
    · rw [cacheCon_cache]
      refine le_trans (List.Sublist.length_le List.eraseP_sublist) ?_
      simp [decShare]
    · simp [decShare]

/-- What `unshare` does to the lists, in a state where the last handle on a connection is being closed or not. -/
theorem unshare_counts {p : Cfg} {s : St} {h : Nat} {e : Nat × Nat} (ho : s.orphans = []) :
    (unshare p e.2 { s with shh := s.shh.eraseP fun e => e.1 = h }).ded = s.ded ∧
    (unshare p e.2 { s with shh := s.shh.eraseP fun e => e.1 = h }).orphans = [] ∧
    (unshare p e.2 { s with shh := s.shh.eraseP fun e => e.1 = h }).connections - (unshare p e.2 { s with shh := s.shh.eraseP fun e => e.1 = h }).cache.length =
      s.connections - s.cache.length := by
  unfold unshare
  simp only [ho, decShare, List.map_nil, List.append_nil]
  cases hfo : (s.cache.map fun o => if o.con = e.2 then (⟨o.con, o.shared - 1⟩ : Shared) else o).find? (fun o => o.con = e.2) with
  | none => simp
  | some o =>
    simp only
    split
    · have hom := List.mem_of_find?_eq_some hfo
      obtain ⟨h1, h2, h3, _, h5⟩ := cacheCon_same p e.2 { s with
        shh := s.shh.eraseP fun e => e.1 = h
        cache := (s.cache.map fun o => if o.con = e.2 then (⟨o.con, o.shared - 1⟩ : Shared) else o).eraseP fun x => sameShared s.tx x o
        orphans := [] }
      simp only [List.eraseP_nil] at *
      rw [h1, h2, h3, h5]
      refine ⟨rfl, rfl, ?_⟩
      rw [List.length_eraseP_of_mem hom (by simp [sameShared])]
      have hl : 0 < s.cache.length := by
        have := List.length_pos_of_mem hom
        simpa using this
      simp only [List.length_map]
      omega
    · simp

/-- The counter of the pool is the number of connections handed out. -/
structure Counted (s : St) : Prop where
  orphans : s.orphans = []
  counter : s.connections = s.ded.length + s.cache.length

theorem counted_step {p : Cfg} {s : St} {op : Op} (hi : Inv p s) (hc : Counted s) (hop : op ≠ .closePool) : Counted (step p s op).1 := by
  have hshare : Counted (shareLeast p s).1 := by
    obtain ⟨h1, h2, h3, _⟩ := shareLeast_same p s
    constructor
    · rw [h3, hc.orphans]
    · rw [h2, h1, shareLeast_cache, hc.counter]
  cases op with
  | «open» sh cr =>
    unfold step
    simp only
    unfold openCon
    split
    · split
      · exact hc
      · split
        · cases ht : take cr s with
          | none => exact hc
          | some e =>
            obtain ⟨c, s'⟩ := e
            obtain ⟨_, _, _, _, h5, h6, h7, _, _, h10, _⟩ := inv_take hi ht
            constructor
            · simp only [h6, hc.orphans]
            · simp only [h10, h7, h5, hc.counter, List.length_append, List.length_singleton]; push_cast; omega
        · exact hshare
    · split
      · exact hc
      · cases ht : take cr s with
        | none => exact hc
        | some e =>
          obtain ⟨c, s'⟩ := e
          obtain ⟨_, _, _, _, h5, h6, h7, _, _, h10, _⟩ := inv_take hi ht
          constructor
          · simp only [h6, hc.orphans]
          · simp only [h10, h7, h5, hc.counter, List.length_cons]; push_cast; omega
  | wake => exact hshare
  | close h =>
    unfold step
    simp only
    unfold closeH
    cases h1 : s.ded.find? (fun e => e.1 = h) with
    | some e =>
      obtain ⟨as, bs, e1, e2, _⟩ := find_erase h1
      constructor
      · show (cacheCon p e.2 _).orphans = []
        rw [cacheCon_orphans]; exact hc.orphans
      · show (cacheCon p e.2 _).connections = _
        have hcn := hc.counter
        simp only [cacheCon_connections, cacheCon_ded, cacheCon_cache, hcn, e2]
        rw [e1]
        simp only [List.length_append, List.length_cons]
        push_cast; omega
    | none =>
      simp only
      cases h2 : s.shh.find? (fun e => e.1 = h) with
      | some e =>
        obtain ⟨k1, k2, k3⟩ := unshare_counts (p := p) (h := h) (e := e) hc.orphans
        have := hc.counter
        constructor
        · exact k2
        · show (unshare p e.2 _).connections = _
          simp only [k1]
          omega
      | none => exact hc
  | closePool => exact absurd rfl hop
  | tx h b =>
    unfold step
    simp only
    split <;> exact ⟨hc.orphans, hc.counter⟩

theorem run_induct (p : Cfg) (P : St → Prop) (h0 : P {}) (Q : Op → Prop) (hs : ∀ s op, Inv p s → P s → Q op → P (step p s op).1) :
    ∀ ops : List Op, (∀ op ∈ ops, Q op) → P (run p ops) := by
  intro ops
  unfold run
  have : ∀ (ops : List Op) (s : St), Inv p s → P s → (∀ op ∈ ops, Q op) → P (ops.foldl (fun s op => (step p s op).1) s) := by
    intro ops
    induction ops with
    | nil => intro s _ h _; exact h
    | cons op ops ih =>
      intro s hi h hq
      exact ih _ (inv_step op hi) (hs s op hi h (hq op (by simp))) fun o ho => hq o (by simp [ho])
  exact this ops {} (inv_init p) h0

theorem run_inv (p : Cfg) (ops : List Op) : Inv p (run p ops) := inv_run p ops (inv_init p)

/-- Until the pool is closed, its counter is the number of connections in use. -/
theorem C37_counter_partial (p : Cfg) (ops : List Op) (h : Op.closePool ∉ ops) : (run p ops).connections = inUse (run p ops) := by
  have hc : Counted (run p ops) := run_induct p Counted ⟨rfl, rfl⟩ (fun op => op ≠ .closePool) (fun s op hi hc hq => counted_step hi hc hq) ops
    (fun op hop he => h (he ▸ hop))
  rw [hc.counter, inUse, hc.orphans]
  simp

/-- A pool without sharing, as the application creates it, has no shared connections. -/
theorem unshared_step {p : Cfg} (hp : p.maxshared = 0) {s : St} {op : Op} (hi : Inv p s) (hc : Counted s ∧ s.cache = [] ∧ s.shh = [])  :
    Counted (step p s op).1 ∧ (step p s op).1.cache = [] ∧ (step p s op).1.shh = [] := by
  obtain ⟨hc, h1, h2⟩ := hc
  by_cases hop : op = .closePool
  · subst hop
    simp only [step, closePool, hp, ne_eq, not_true_eq_false, if_false]
    exact ⟨⟨hc.orphans, hc.counter⟩, h1, h2⟩
  · refine ⟨counted_step hi hc hop, ?_⟩
    cases op with
    | «open» sh cr =>
      simp only [step, openCon, hp, ne_eq, not_true_eq_false, and_false, if_false]
      split
      · exact ⟨h1, h2⟩
      · cases ht : take cr s with
        | none => exact ⟨h1, h2⟩
        | some e =>
          obtain ⟨c, s'⟩ := e
          obtain ⟨_, _, _, _, h5, h6, h7, h8, _⟩ := inv_take hi ht
          exact ⟨by simp only [h5, h1], by simp only [h8, h2]⟩
    | wake => simp [step, shareLeast, h1, h2, sortShared]
    | close h =>
      simp only [step, closeH, h2, List.find?_nil]
      cases s.ded.find? (fun e => e.1 = h) with
      | none => exact ⟨h1, h2⟩
      | some e =>
        simp only [cacheCon_cache, cacheCon_shh]
        exact ⟨h1, trivial⟩
    | closePool => exact absurd rfl hop
    | tx h b =>
      simp only [step]
      split <;> exact ⟨h1, h2⟩

theorem unshared_run {p : Cfg} (hp : p.maxshared = 0) (ops : List Op) : Counted (run p ops) ∧ (run p ops).cache = [] ∧ (run p ops).shh = [] :=
  run_induct p (fun s => Counted s ∧ s.cache = [] ∧ s.shh = []) ⟨⟨rfl, rfl⟩, rfl, rfl⟩ (fun _ => True)
    (fun _ _ hi hc _ => unshared_step hp hi hc) ops (fun _ _ => trivial)

/-- Without sharing, the counter is right whatever is done, closing the pool included. -/
theorem C37_counter_dedicated (p : Cfg) (hp : p.maxshared = 0) (ops : List Op) : (run p ops).connections = inUse (run p ops) := by
  obtain ⟨hc, _⟩ := unshared_run hp ops
  rw [hc.counter, inUse, hc.orphans]
  simp

/-- Without sharing, never more than `maxconnections` connections are handed out. -/
theorem C37_limit_dedicated (p : Cfg) (hp : p.maxshared = 0) (hm : p.maxconn ≠ 0) (ops : List Op) : inUse (run p ops) ≤ p.maxconn := by
  have : ((Counted (run p ops) ∧ (run p ops).cache = [] ∧ (run p ops).shh = []) ∧ (run p ops).ded.length ≤ p.maxconn) := by
    refine run_induct p (fun s => (Counted s ∧ s.cache = [] ∧ s.shh = []) ∧ s.ded.length ≤ p.maxconn) ⟨⟨⟨rfl, rfl⟩, rfl, rfl⟩, by simp⟩ (fun _ => True) ?_ ops
      (fun _ _ => trivial)
    rintro s op hi ⟨hc, hl⟩ _
    refine ⟨unshared_step hp hi hc, ?_⟩
    obtain ⟨hc, h1, h2⟩ := hc
    cases op with
    | «open» sh cr =>
      simp only [step, openCon, hp, ne_eq, not_true_eq_false, and_false, if_false]
      split
      · exact hl
      · rename_i hlim
        have hlim : s.connections < p.maxconn := by
          by_contra hcon
          exact hlim ⟨hm, by omega⟩
        cases ht : take cr s with
        | none => exact hl
        | some e =>
          obtain ⟨c, s'⟩ := e
          obtain ⟨_, _, _, _, h5, h6, h7, h8, _⟩ := inv_take hi ht
          have := hc.counter
          simp only [h7, List.length_cons]
          rw [h1] at this
          simp only [List.length_nil] at this
          push_cast at this
          omega
    | wake => simpa [step, shareLeast, h1, sortShared] using hl
    | close h =>
      simp only [step, closeH, h2, List.find?_nil]
      cases s.ded.find? (fun e => e.1 = h) with
      | none => exact hl
      | some e =>
        simp only [cacheCon_ded]
        exact le_trans (List.Sublist.length_le List.eraseP_sublist) hl
    | closePool => simpa [step, closePool, hp] using hl
    | tx h b =>
      simp only [step]
      split <;> exact hl
  obtain ⟨⟨hc, h1, _⟩, hl⟩ := this
  simpa [inUse, hc.orphans, h1] using hl

example : inUse (run ⟨0, 0, 2, true, true⟩ [.open true true, .open false true, .open false true, .close 0, .open false true]) = 2 := by decide

/-- With sharing too, until the pool is closed: the limit can be exceeded, but by less than `maxshared`. -/
theorem C37_limit_partial (p : Cfg) (hm : p.maxconn ≠ 0) (hp : p.maxshared ≠ 0) (ops : List Op) (h : Op.closePool ∉ ops) :
    inUse (run p ops) ≤ p.maxconn + p.maxshared - 1 := by
  have : Counted (run p ops) ∧ (run p ops).cache.length ≤ p.maxshared ∧ (run p ops).ded.length + min 1 (run p ops).cache.length ≤ p.maxconn := by
    refine run_induct p (fun s => Counted s ∧ s.cache.length ≤ p.maxshared ∧ s.ded.length + min 1 s.cache.length ≤ p.maxconn) ⟨⟨rfl, rfl⟩, by simp, by simp⟩
      (fun op => op ≠ .closePool) ?_ ops (fun op hop he => h (he ▸ hop))
    rintro s op hi ⟨hc, hl, hd⟩ hop
    refine ⟨counted_step hi hc hop, ?_⟩
    have hcn := hc.counter
    have hshare : (shareLeast p s).1.cache.length ≤ p.maxshared ∧ (shareLeast p s).1.ded.length + min 1 (shareLeast p s).1.cache.length ≤ p.maxconn := by
      rw [shareLeast_cache, (shareLeast_same p s).1]
      exact ⟨hl, hd⟩
    cases op with
    | «open» sh cr =>
      simp only [step]
      unfold openCon
      split
      · split
        · exact ⟨hl, hd⟩
        · rename_i hw
          split
          · rename_i hlt
            cases ht : take cr s with
            | none => exact ⟨hl, hd⟩
            | some e =>
              obtain ⟨c, s'⟩ := e
              obtain ⟨_, _, _, _, h5, h6, h7, h8, _⟩ := inv_take hi ht
              simp only [h5, h7, List.length_append, List.length_singleton]
              refine ⟨by omega, ?_⟩
              by_cases h0 : s.cache = []
              · have : s.connections < p.maxconn := by
                  by_contra hcon
                  exact hw ⟨h0, hm, by omega⟩
                rw [h0] at hcn ⊢
                simp only [List.length_nil] at hcn ⊢
                push_cast at hcn
                omega
              · have := List.length_pos_iff.2 h0
                omega
          · exact hshare
      · split
        · exact ⟨hl, hd⟩
        · rename_i hlim
          have hlim : s.connections < p.maxconn := by
            by_contra hcon
            exact hlim ⟨hm, by omega⟩
          cases ht : take cr s with
          | none => exact ⟨hl, hd⟩
          | some e =>
            obtain ⟨c, s'⟩ := e
            obtain ⟨_, _, _, _, h5, h6, h7, h8, _⟩ := inv_take hi ht
            simp only [h5, h7, List.length_cons]
            exact ⟨hl, by omega⟩
    | wake => exact hshare
    | close h =>
      simp only [step]
      unfold closeH
      cases h1 : s.ded.find? (fun e => e.1 = h) with
      | some e =>
        simp only [cacheCon_ded, cacheCon_cache]
        have : (s.ded.eraseP fun e => e.1 = h).length ≤ s.ded.length := List.Sublist.length_le List.eraseP_sublist
        exact ⟨hl, by omega⟩
      | none =>
        simp only
        cases h2 : s.shh.find? (fun e => e.1 = h) with
        | some e =>
          obtain ⟨k1, k2, k3⟩ := unshare_counts (p := p) (h := h) (e := e) hc.orphans
          have hle := unshare_cache_le p e.2 { s with shh := s.shh.eraseP fun e => e.1 = h }
          simp only at hle
          simp only [k1]
          exact ⟨by omega, by omega⟩
        | none => exact ⟨hl, hd⟩
    | closePool => exact absurd rfl hop
    | tx h b =>
      simp only [step]
      split <;> exact ⟨hl, hd⟩
  obtain ⟨hc, hl, hd⟩ := this
  simp only [inUse, hc.orphans, List.length_nil]
  omega

/-- The limit holds if requests for dedicated connections do not occur. -/
theorem C37_limit_shared_partial (p : Cfg) (hm : p.maxshared ≤ p.maxconn) (hp : p.maxshared ≠ 0) (ops : List Op) (h : Op.closePool ∉ ops)
    (hsh : ∀ c, Op.open false c ∉ ops) : inUse (run p ops) ≤ p.maxconn := by
  have : Counted (run p ops) ∧ (run p ops).cache.length ≤ p.maxshared ∧ (run p ops).ded = [] := by
    refine run_induct p (fun s => Counted s ∧ s.cache.length ≤ p.maxshared ∧ s.ded = []) ⟨⟨rfl, rfl⟩, by simp, rfl⟩
      (fun op => op ≠ .closePool ∧ ∀ c, op ≠ .open false c) ?_ ops (fun op hop => ⟨fun he => h (he ▸ hop), fun c he => hsh c (he ▸ hop)⟩)
    rintro s op hi ⟨hc, hl, hd⟩ ⟨hop, hos⟩
    refine ⟨counted_step hi hc hop, ?_⟩
    have hshare : (shareLeast p s).1.cache.length ≤ p.maxshared ∧ (shareLeast p s).1.ded = [] := by
      rw [shareLeast_cache, (shareLeast_same p s).1]
      exact ⟨hl, hd⟩
    cases op with
    | «open» sh cr =>
      cases sh with
      | false => exact absurd rfl (hos cr)
      | true =>
      simp only [step]
      unfold openCon
      rw [if_pos ⟨rfl, hp⟩]
      split
      · exact ⟨hl, hd⟩
      · split
        · rename_i hlt
          cases ht : take cr s with
          | none => exact ⟨hl, hd⟩
          | some e =>
            obtain ⟨c, s'⟩ := e
            obtain ⟨_, _, _, _, h5, h6, h7, h8, _⟩ := inv_take hi ht
            simp only [h5, h7, List.length_append, List.length_singleton]
            exact ⟨by omega, hd⟩
        · exact hshare
    | wake => exact hshare
    | close h =>
      simp only [step]
      unfold closeH
      rw [hd, List.find?_nil]
      simp only
      cases h2 : s.shh.find? (fun e => e.1 = h) with
      | some e =>
        obtain ⟨k1, k2, k3⟩ := unshare_counts (p := p) (h := h) (e := e) hc.orphans
        have hle := unshare_cache_le p e.2 { s with shh := s.shh.eraseP fun e => e.1 = h }
        simp only at hle
        rw [hd] at k1
        rw [hd] at hle
        exact ⟨le_trans hle hl, k1⟩
      | none => exact ⟨hl, hd⟩
    | closePool => exact absurd rfl hop
    | tx h b =>
      simp only [step]
      split <;> exact ⟨hl, hd⟩
  obtain ⟨hc, hl, hd⟩ := this
  simp only [inUse, hc.orphans, hd, List.length_nil]
  omega

/-- The idle cache keeps to its limit, whatever is done. -/
theorem C37_idle_limit (p : Cfg) (ops : List Op) (h : p.maxcached ≠ 0) : (run p ops).idle.length ≤ p.maxcached := (run_inv p ops).lim h

/-- Below the limit a dedicated connection is given, as long as the driver can open one. -/
theorem C37_served_below_limit (p : Cfg) (ops : List Op) (hc : Op.closePool ∉ ops) (h : p.maxconn = 0 ∨ inUse (run p ops) < p.maxconn) :
    ∃ hd c, (step p (run p ops) (.open false true)).2 = .handle hd c := by
  have hcnt := C37_counter_partial p ops hc
  have hlim : ¬ (p.maxconn ≠ 0 ∧ (run p ops).connections ≥ p.maxconn) := by
    rintro ⟨h1, h2⟩
    rcases h with h | h
    · exact h1 h
    · omega
  simp only [step, openCon, Bool.false_eq_true, false_and, if_false, if_neg hlim]
  cases ht : take true (run p ops) with
  | none =>
    unfold take at ht
    split at ht <;> simp at ht
  | some e => exact ⟨_, _, rfl⟩

/-- At the limit a dedicated connection is refused. -/
theorem C37_refused_at_limit (p : Cfg) (ops : List Op) (hc : Op.closePool ∉ ops) (hm : p.maxconn ≠ 0) (h : p.maxconn ≤ inUse (run p ops)) (cr : Bool) :
    step p (run p ops) (.open false cr) = (run p ops, waitLock p) := by
  have hcnt := C37_counter_partial p ops hc
  simp only [step, openCon, Bool.false_eq_true, false_and, if_false]
  rw [if_pos ⟨hm, by omega⟩]

/-- One dedicated connection and one shared one use up a limit of two, yet another request for a shared connection opens a third: the loop
that waits (pooled_db.py 289-291) is skipped while the shared cache is not empty. -/
theorem C37_fails_shared_limit : ∃ (p : Cfg) (ops : List Op), mkCfg 2 0 0 2 2 true true = .ok p ∧ p.maxconn = 2 ∧ Op.closePool ∉ ops ∧ inUse (run p ops) = 3 :=
  ⟨⟨0, 2, 2, true, true⟩, [.open false true, .open true true, .open true true], by decide, rfl, by decide, by decide⟩

/-- Closing the pool subtracts the shared connections from the counter; closing their handles subtracts them again.  From then on more connections
than the limit are given. -/
theorem C37_fails_after_close : ∃ (p : Cfg) (ops : List Op), mkCfg 2 0 0 1 1 true true = .ok p ∧ p.maxconn = 1 ∧
    (run p (ops.take 3)).connections = -1 ∧ inUse (run p ops) = 2 :=
  ⟨⟨0, 1, 1, true, true⟩, [.open true true, .closePool, .close 0, .open false true, .open false true], by decide, rfl, by decide, by decide⟩

/-! ### The initial connections -/

/-- The state after opening `n` dedicated connections. -/
theorem run_opens (p : Cfg) : ∀ n : Nat, (p.maxconn = 0 ∨ n ≤ p.maxconn) →
    run p (List.replicate n (.open false true)) =
      { ded := (List.range n).reverse.map fun i => (i, i), connections := n, next := n, nextH := n }
  | 0, _ => rfl
  | n + 1, h => by
    have ih := run_opens p n (by omega)
    unfold run at ih ⊢
    rw [List.replicate_succ', List.foldl_append, ih]
    simp only [List.foldl_cons, List.foldl_nil, step, openCon, Bool.false_eq_true, false_and, if_false, take]
    rw [if_neg (by rintro ⟨h1, h2⟩; omega)]
    simp [List.range_succ]

theorem run_closes (p : Cfg) (tx : Nat → Bool) (htx : ∀ c, tx c = false) : ∀ (n k m : Nat) (idle : List Nat), (p.maxcached = 0 ∨ idle.length + n ≤ p.maxcached) →
    ((List.range n).reverse.map Op.close).foldl (fun s op => (step p s op).1)
      { idle := idle, ded := (List.range n).reverse.map fun i => (i, i), connections := n, next := k, nextH := m, tx := tx } =
      { idle := idle ++ (List.range n).reverse, connections := 0, next := k, nextH := m, tx := tx }
  | 0, k, m, idle, _ => by simp
  | n + 1, k, m, idle, h => by
    have hr : (List.range (n + 1)).reverse = n :: (List.range n).reverse := by simp [List.range_succ]
    rw [hr]
    simp only [List.map_cons, List.foldl_cons, step, closeH, decide_true, List.find?_cons_of_pos, List.eraseP_cons_of_pos, cacheCon]
    have htx' : resetTx p.reset tx n = tx := by
      unfold resetTx
      split
      · funext x
        simp only [setTx]
        split
        · exact (htx x).symm
        · rfl
      · rfl
    rw [if_pos (by rcases h with h | h; exact Or.inl h; right; omega), htx']
    have := run_closes p tx htx n k m (idle ++ [n]) (by rcases h with h | h; exact Or.inl h; right; simp; omega)
    simp only [List.append_assoc, List.singleton_append] at this
    have hn : ((n + 1 : Nat) : Int) - 1 = (n : Nat) := by push_cast; omega
    rw [hn]
    exact this

/-- A new pool holds `mincached` idle connections and none in use, if the limit allows that many. -/
theorem C37_init_partial {ts mincached maxcached maxshared maxconn : Nat} {b r : Bool} {p : Cfg} (hp : mkCfg ts mincached maxcached maxshared maxconn b r = .ok p)
    (h : maxconn = 0 ∨ maxcached ≠ 0 ∨ mincached ≤ maxconn) :
    (run p (initOps mincached)).idle = (List.range mincached).reverse ∧ inUse (run p (initOps mincached)) = 0 ∧ (run p (initOps mincached)).connections = 0 := by
  have h1 : (p.maxcached = 0 ∨ mincached ≤ p.maxcached) ∧ (p.maxconn = 0 ∨ mincached ≤ p.maxconn) := by
    unfold mkCfg at hp
    split at hp
    · cases hp
    · injection hp with hp
      subst hp
      simp only
      constructor
      · split <;> omega
      · split
        · split <;> omega
        · left; rfl
  unfold initOps run
  rw [List.foldl_append]
  have h2 := run_opens p mincached h1.2
  unfold run at h2
  rw [h2, run_closes p _ (fun _ => rfl) mincached mincached mincached [] (by simpa using h1.1)]
  simp [inUse]

/-- The pool of the application: five idle connections. -/
example : ∃ p, mkCfg 1 5 0 0 0 false true = .ok p ∧ (run p (initOps 5)).idle = [4, 3, 2, 1, 0] := ⟨_, rfl, by decide⟩

/-- If `mincached` is greater than `maxconnections` (and `maxcached` is 0), the constructor waits for itself, or raises. -/
theorem C37_fails_init {ts mincached maxshared maxconn : Nat} {b r : Bool} {p : Cfg} (hp : mkCfg ts mincached 0 maxshared maxconn b r = .ok p)
    (h0 : maxconn ≠ 0) (hs : maxshared ≤ maxconn) (_h : maxconn < mincached) :
    (step p (run p (List.replicate maxconn (.open false true))) (.open false true)).2 = if b then .wait else .raised .tooMany := by
  have hm : p.maxconn = maxconn ∧ p.blocking = b := by
    unfold mkCfg at hp
    split at hp
    · cases hp
    · injection hp with hp
      subst hp
      simp only [ne_eq, not_true_eq_false, if_false]
      exact ⟨by omega, trivial⟩
  have hr := C37_refused_at_limit p (List.replicate maxconn (.open false true)) (by simp) (by omega)
    (by rw [run_opens p maxconn (by omega)]; simp [inUse, hm.1]) true
  rw [hr]
  simp [waitLock, hm.2]

/-! ## Ownership (C38) -/

/-- Two handles on dedicated connections never have the same connection. -/
theorem C38_dedicated_exclusive (p : Cfg) (ops : List Op) {h1 h2 c : Nat} (m1 : (h1, c) ∈ (run p ops).ded) (m2 : (h2, c) ∈ (run p ops).ded) : h1 = h2 := by
  have hn := (run_inv p ops).nodup
  unfold owned at hn
  have hd : ((run p ops).ded.map Prod.snd).Nodup := (List.nodup_append.1 (List.nodup_append.1 hn).2.1).1
  have := List.inj_on_of_nodup_map hd m1 m2 rfl
  injection this

/-- A dedicated connection is not idle and not shared. -/
theorem C38_dedicated_not_elsewhere (p : Cfg) (ops : List Op) {h c : Nat} (m : (h, c) ∈ (run p ops).ded) :
    c ∉ (run p ops).idle ∧ ∀ h', (h', c) ∉ (run p ops).shh := by
  have hi := run_inv p ops
  have hn := hi.nodup
  unfold owned at hn
  have hm : c ∈ (run p ops).ded.map Prod.snd := List.mem_map.2 ⟨_, m, rfl⟩
  obtain ⟨_, hn2, hd1⟩ := List.nodup_append.1 hn
  obtain ⟨_, _, hd2⟩ := List.nodup_append.1 hn2
  refine ⟨fun hc => hd1 _ hc _ (List.mem_append_left _ hm) rfl, fun h' hs => ?_⟩
  obtain ⟨o, ho, hoc⟩ := hi.owner _ hs
  simp only at hoc
  refine hd2 _ hm c ?_ rfl
  rw [← hoc, ← List.map_append]
  exact List.mem_map.2 ⟨o, ho, rfl⟩

/-- A shared connection in use is not idle. -/
theorem C38_shared_not_idle (p : Cfg) (ops : List Op) {h c : Nat} (m : (h, c) ∈ (run p ops).shh) : c ∉ (run p ops).idle := by
  have hi := run_inv p ops
  obtain ⟨o, ho, hoc⟩ := hi.owner _ m
  have hn := hi.nodup
  unfold owned at hn
  intro hc
  refine (List.nodup_append.1 hn).2.2 _ hc c (List.mem_append_right _ ?_) rfl
  simp only at hoc
  rw [← hoc, ← List.map_append]
  exact List.mem_map.2 ⟨o, ho, rfl⟩

/-- The share count of a shared connection is the number of its handles: it is not returned while one is left, and returned with the last. -/
theorem C38_share_count (p : Cfg) (ops : List Op) : ∀ o ∈ (run p ops).cache, o.shared = ((run p ops).shh.countP fun e => e.2 = o.con : Nat) ∧ 0 < o.shared :=
  fun o ho => (run_inv p ops).count o (by simp [ho])

/-- A dedicated request gets a connection nobody holds. -/
theorem C38_new_unowned (p : Cfg) (ops : List Op) {cr : Bool} {h c : Nat} (hr : (step p (run p ops) (.open false cr)).2 = .handle h c) :
    (∀ h', (h', c) ∉ (run p ops).ded ++ (run p ops).shh) ∧ (h, c) ∈ (step p (run p ops) (.open false cr)).1.ded := by
  have hi := run_inv p ops
  simp only [step, openCon, Bool.false_eq_true, false_and, if_false] at hr ⊢
  split at hr
  · unfold waitLock at hr
    split at hr <;> cases hr
  · rename_i hlim
    rw [if_neg hlim]
    cases ht : take cr (run p ops) with
    | none => rw [ht] at hr; cases hr
    | some e =>
      obtain ⟨c', s'⟩ := e
      obtain ⟨h1, h2, _, _, h5, h6, h7, h8, _⟩ := inv_take hi ht
      rw [ht] at hr
      simp only [Res.handle.injEq] at hr
      obtain ⟨rfl, rfl⟩ := hr
      refine ⟨fun h' hm => ?_, by simp⟩
      rcases List.mem_append.1 hm with hm | hm
      · refine h2 ?_
        unfold owned
        rw [h7]
        exact List.mem_append_right _ (List.mem_append_left _ (List.mem_map.2 ⟨_, hm, rfl⟩))
      · obtain ⟨o, ho, hoc⟩ := hi.owner _ hm
        refine h2 ?_
        unfold owned
        rw [h5, h6, ← List.map_append]
        exact List.mem_append_right _ (List.mem_append_right _ (List.mem_map.2 ⟨o, ho, hoc⟩))

/-- Every connection handed out is in no transaction: an unfinished one of the previous holder was rolled back. -/
theorem C38_handed_out_clean (p : Cfg) (ops : List Op) {op : Op} {h c : Nat} (hr : (step p (run p ops) op).2 = .handle h c) :
    (step p (run p ops) op).1.tx c = false := by
  have hi := run_inv p ops
  have hshare : ∀ s : St, (shareLeast p s).2 = .handle h c → (shareLeast p s).1.tx c = false := by
    intro s hs
    unfold shareLeast at hs ⊢
    split at hs
    · cases hs
    · rename_i o r hso
      split at hs
      · split at hs <;> cases hs
      · rename_i htx
        simp only [if_neg htx]
        simp only [Res.handle.injEq] at hs
        rw [← hs.2]
        simpa using htx
  cases op with
  | «open» sh cr =>
    simp only [step] at hr ⊢
    unfold openCon at hr ⊢
    have hw : waitLock p ≠ .handle h c := by unfold waitLock; split <;> simp
    split at hr
    · rename_i h1
      rw [if_pos h1]
      split at hr
      · exact absurd hr hw
      · rename_i h2
        rw [if_neg h2]
        split at hr
        · rename_i h3
          rw [if_pos h3]
          cases ht : take cr (run p ops) with
          | none => rw [ht] at hr; cases hr
          | some e =>
            obtain ⟨c', s'⟩ := e
            rw [ht] at hr
            simp only [Res.handle.injEq] at hr
            rw [← hr.2]
            exact (inv_take hi ht).2.2.2.1
        · rename_i h3
          rw [if_neg h3]
          exact hshare _ hr
    · rename_i h1
      rw [if_neg h1]
      split at hr
      · exact absurd hr hw
      · rename_i h2
        rw [if_neg h2]
        cases ht : take cr (run p ops) with
        | none => rw [ht] at hr; cases hr
        | some e =>
          obtain ⟨c', s'⟩ := e
          rw [ht] at hr
          simp only [Res.handle.injEq] at hr
          rw [← hr.2]
          exact (inv_take hi ht).2.2.2.1
  | wake => exact hshare _ hr
  | close h => cases hr
  | closePool => cases hr
  | tx h b => cases hr

theorem unshare_handles (p : Cfg) (c : Nat) (s : St) : (unshare p c s).ded = s.ded ∧ (unshare p c s).shh = s.shh := by
  unfold unshare
  simp only
  split
  · simp
  · split
    · exact ⟨(cacheCon_same p c _).1, (cacheCon_same p c _).2.2.2.1⟩
    · simp

theorem find_none_of_erase {l : List (Nat × Nat)} {h : Nat} (hn : (l.map Prod.fst).Nodup) : (l.eraseP fun e => e.1 = h).find? (fun e => e.1 = h) = none := by
  induction l with
  | nil => rfl
  | cons a l ih =>
    rw [List.map_cons, List.nodup_cons] at hn
    by_cases ha : a.1 = h
    · rw [List.eraseP_cons_of_pos (by simp [ha]), List.find?_eq_none]
      intro x hx hxe
      simp only [decide_eq_true_eq] at hxe
      exact hn.1 (List.mem_map.2 ⟨x, hx, by rw [hxe, ha]⟩)
    · rw [List.eraseP_cons_of_neg (by simp [ha]), List.find?_cons_of_neg (by simp [ha])]
      exact ih hn.2

theorem find_none_of_nodup {l m : List (Nat × Nat)} {h : Nat} {e : Nat × Nat} (hn : ((l ++ m).map Prod.fst).Nodup) (hf : l.find? (fun e => e.1 = h) = some e) :
    m.find? (fun e => e.1 = h) = none := by
  rw [List.map_append, List.nodup_append] at hn
  have h1 := List.mem_of_find?_eq_some hf
  have h2 : e.1 = h := by simpa using List.find?_some hf
  rw [List.find?_eq_none]
  intro x hx hxe
  simp only [decide_eq_true_eq] at hxe
  exact hn.2.2 _ (List.mem_map.2 ⟨e, h1, rfl⟩) _ (List.mem_map.2 ⟨x, hx, rfl⟩) (by rw [h2, hxe])

/-- Closing a handle a second time changes nothing. -/
theorem C38_close_twice (p : Cfg) (ops : List Op) (h : Nat) : closeH p h (closeH p h (run p ops)) = closeH p h (run p ops) := by
  have hi := run_inv p ops
  have hd : ((run p ops).ded.map Prod.fst).Nodup := by have := hi.hnodup; rw [List.map_append] at this; exact (List.nodup_append.1 this).1
  have hs : ((run p ops).shh.map Prod.fst).Nodup := by have := hi.hnodup; rw [List.map_append] at this; exact (List.nodup_append.1 this).2.1
  have key : (closeH p h (run p ops)).ded.find? (fun e => e.1 = h) = none ∧ (closeH p h (run p ops)).shh.find? (fun e => e.1 = h) = none := by
    unfold closeH
    cases h1 : (run p ops).ded.find? (fun e => e.1 = h) with
    | some e =>
      obtain ⟨k1, _, _, k4, _⟩ := cacheCon_same p e.2 { run p ops with ded := (run p ops).ded.eraseP fun e => e.1 = h }
      simp only [k1, k4]
      exact ⟨find_none_of_erase hd, find_none_of_nodup hi.hnodup h1⟩
    | none =>
      simp only
      cases h2 : (run p ops).shh.find? (fun e => e.1 = h) with
      | some e =>
        obtain ⟨k1, k2⟩ := unshare_handles p e.2 { run p ops with shh := (run p ops).shh.eraseP fun e => e.1 = h }
        simp only [k1, k2]
        exact ⟨h1, find_none_of_erase hs⟩
      | none => exact ⟨h1, h2⟩
  rw [closeH.eq_def p h (closeH p h (run p ops)), key.1, key.2]

/-- `close` tests `self._con`, returns the connection and only then clears `self._con` (pooled_db.py 415-421): two threads that close one handle
at the same time may both return it. -/
def closeRace (p : Cfg) (h : Nat) (s : St) : St :=
  match s.ded.find? fun e => e.1 = h with
  | some (_, c) => cacheCon p c (cacheCon p c { s with ded := s.ded.eraseP fun e => e.1 = h })
  | none => s

/-- Then two requests get the same connection. -/
theorem C38_fails_concurrent_close (p : Cfg) (hp : p.maxcached = 0) (hm : p.maxconn = 0) :
    let s0 := run p [.open false true]
    let s := closeRace p 0 s0
    let s' := (step p s (.open false true)).1
    (step p s (.open false true)).2 = .handle 1 0 ∧ (step p s' (.open false true)).2 = .handle 2 0 := by
  simp [run, step, openCon, take, closeRace, cacheCon, hp, hm]

/-! ## Waiting (C53) -/

/-- Without sharing: a caller that waits is woken by the next `close` of a live handle, and is then served. -/
theorem C53_served_after_close_partial (p : Cfg) (hp : p.maxshared = 0) (ops : List Op) (sh : Bool) {h : Nat} {e : Nat × Nat}
    (hh : (run p ops).ded.find? (fun e => e.1 = h) = some e) (hc : Op.closePool ∉ ops) :
    notifies p (run p ops) (.close h) = true ∧ ∃ h' c', (step p (step p (run p ops) (.close h)).1 (.open sh true)).2 = .handle h' c' := by
  refine ⟨by simp [notifies, hh], ?_⟩
  have hl : p.maxconn = 0 ∨ inUse (run p (ops ++ [.close h])) < p.maxconn := by
    by_cases hm : p.maxconn = 0
    · exact Or.inl hm
    · right
      have h1 := C37_limit_dedicated p hp hm ops
      obtain ⟨hcn, hca, _⟩ := unshared_run hp ops
      have h2 := C37_counter_dedicated p hp (ops ++ [.close h])
      have hrun : run p (ops ++ [.close h]) = closeH p h (run p ops) := by
        simp only [run, List.foldl_append, List.foldl_cons, List.foldl_nil]
        rfl
      have hcl : (closeH p h (run p ops)).connections = (run p ops).connections - 1 := by
        unfold closeH
        rw [hh]
        exact cacheCon_connections _ _ _
      have h3 := C37_counter_dedicated p hp ops
      rw [hrun, hcl] at h2
      rw [hrun]
      omega
  have := C37_served_below_limit p (ops ++ [.close h]) (by simp [hc]) hl
  simp only [run, List.foldl_append, List.foldl_cons, List.foldl_nil] at this
  have hopen : ∀ s : St, step p s (.open sh true) = step p s (.open false true) := by
    intro s
    simp [step, openCon, hp]
  rw [hopen]
  exact this

example : (run ⟨0, 0, 1, true, true⟩ [.open false true]).ded.find? (fun e => e.1 = 0) = some (0, 0) ∧
    (step ⟨0, 0, 1, true, true⟩ (run ⟨0, 0, 1, true, true⟩ [.open false true]) (.open false true)).2 = .wait := by decide

/-- A caller that waits for a shared connection to leave its transaction, and is woken when the connection has been returned, gets
IndexError: it pops from the empty shared cache (pooled_db.py 311). -/
theorem C53_fails_index_error : ∃ (p : Cfg) (ops : List Op), mkCfg 2 0 0 1 1 true true = .ok p ∧
    (step p (run p ops) (.open true true)).2 = .waitTx ∧ notifies p (run p ops) (.close 0) = true ∧
    (step p (run p (ops ++ [.open true true, .close 0])) .wake).2 = .raised .indexError :=
  ⟨⟨0, 1, 1, true, true⟩, [.open true true, .tx 0 true], by decide, by decide, by decide, by decide⟩

/-- In every state with an empty shared cache. -/
theorem C53_fails_wake_empty (p : Cfg) (s : St) (h : s.cache = []) : (step p s .wake).2 = .raised .indexError := by
  simp [step, shareLeast, h, sortShared]

/-- The end of the transaction itself wakes nobody: the caller keeps waiting though the connection could be shared. -/
theorem C53_fails_commit_not_notified : ∃ (p : Cfg) (ops : List Op), mkCfg 2 0 0 1 1 true true = .ok p ∧
    (step p (run p ops) (.open true true)).2 = .waitTx ∧ notifies p (run p ops) (.tx 0 false) = false ∧
    (step p (run p (ops ++ [.open true true, .tx 0 false])) .wake).2 = .handle 1 0 :=
  ⟨⟨0, 1, 1, true, true⟩, [.open true true, .tx 0 true], by decide, by decide, by decide, by decide⟩

end EulerDB.Pool
