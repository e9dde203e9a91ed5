import Mathlib.Tactic.ByContra
import Verif.Lib.Basic
import Verif.Path.Props

/-!
# The address a server prefers

`Connection::migrate` with all its checks, and what a client does about the server's preferred
address when the handshake is confirmed.  The paths are those of `Path/Model`.
-/
namespace Neqo.Path

/-! ## The model -/

/-- An address: its family, its number and its port. -/
structure Addr where
  v6 : Bool
  ip : Nat
  port : Nat
  deriving DecidableEq, Repr

/-- The addresses in the model of paths are numbers. -/
def Addr.code (a : Addr) : Nat := (a.ip * 2 + a.v6.toNat) * 65536 + a.port

def Addr.ofCode (n : Nat) : Addr := ⟨decide (n / 65536 % 2 = 1), n / 65536 / 2, n % 65536⟩

/-- `IpAddr::is_loopback`. -/
def Addr.loopback (a : Addr) : Bool := if a.v6 then decide (a.ip = 1) else decide (a.ip / 16777216 = 127)

/-- `IpAddr::is_unspecified`. -/
def Addr.unspecified (a : Addr) : Bool := decide (a.ip = 0)

/-- The checks of `Connection::migrate` on the role, the state, the transport parameter and the
addresses (connection/mod.rs:2142-2175). -/
def checkMigrate (c : Conn) (confirmed noMigration : Bool) (loc rem : Option Addr) : Except Err (Addr × Addr) :=
  if c.client = false then .error .invalidMigration
  else if confirmed = false then .error .invalidMigration
  else if noMigration = true then .error .invalidMigration
  else if loc = none ∧ rem = none then .error .invalidMigration
  else
    match c.primary with
    | none => .error .invalidMigration
    | some p =>
      let l := loc.getD (.ofCode (c.heap p).loc)
      let r := rem.getD (.ofCode (c.heap p).rem)
      if l.v6 ≠ r.v6 then .error .invalidMigration
      else if l.port = 0 ∨ r.unspecified = true ∨ r.port = 0 then .error .invalidMigration
      else if (l.loopback ^^ r.loopback) = true ∧ l.unspecified = false then .error .invalidMigration
      else .ok (l, r)

/-- `Connection::migrate` (connection/mod.rs:2135-2197). -/
def migrateCall (c : Conn) (confirmed noMigration : Bool) (loc rem : Option Addr) (mtu : Nat) (force : Bool) (now : Nat) :
    Except Err Conn :=
  match checkMigrate c confirmed noMigration loc rem with
  | .error e => .error e
  | .ok (l, r) => c.migrate l.code r.code mtu force now

/-- What a server's parameters say: an address of each family, and a connection ID. -/
structure Preferred where
  v4 : Option Addr
  v6 : Option Addr
  entry : Entry

/-- The address of the family of `prev` (connection/mod.rs:2229-2232). -/
def Preferred.of (a : Preferred) (prev : Addr) : Option Addr := if prev.v6 then a.v6 else a.v4

/-- An error of `migrate` is only logged (connection/mod.rs:2242-2244). -/
def ignoring (c : Conn) (r : Except Err Conn) : Except Err Conn :=
  match r with
  | .ok c => .ok c
  | .error .panic => .error .panic
  | .error _ => .ok c

/-- What `migrate_to_preferred_address` does with the connection ID being stored
(connection/mod.rs:2223-2248). -/
def aim (c : Conn) (noMigration : Bool) (a : Preferred) (mtu now : Nat) : Except Err Conn :=
  match c.primary with
  | none => .error .noAvailablePath
  | some p =>
    match a.of (.ofCode (c.heap p).rem) with
    | none => .ok c
    | some r =>
      if (Addr.ofCode (c.heap p).rem).loopback = false ∧ r.loopback = true then .ok c
      else ignoring c (migrateCall c true noMigration none (some r) mtu false now)

/-- `Connection::migrate_to_preferred_address` (connection/mod.rs:2205-2252); `disabled` is the
setting of the client, `noMigration` whether the server disabled migration. -/
def toPreferred (c : Conn) (disabled noMigration : Bool) (spa : Option Preferred) (mtu now : Nat) : Except Err Conn :=
  match (if disabled then none else spa) with
  | none => .ok c
  | some a =>
    match addRemote c.store a.entry with
    | .error e => .error e
    | .ok s => aim { c with store := s } noMigration a mtu now

/-- The HANDSHAKE_DONE frame (connection/mod.rs:3543-3551). -/
def handshakeDone (c : Conn) (disabled noMigration : Bool) (spa : Option Preferred) (mtu now : Nat) : Except Err Conn :=
  if c.client = false ∨ c.connected = false then .error .protocolViolation
  else toPreferred c disabled noMigration spa mtu now

/-! ## Specification -/

/-- An address of a server that a client may move to from `prev`, if it sends from `loc`. -/
structure Fit (loc prev rem : Addr) : Prop where
  family : rem.v6 = prev.v6 ∧ rem.v6 = loc.v6
  whole : rem.ip ≠ 0 ∧ rem.port ≠ 0
  loopback : rem.loopback = true → prev.loopback = true ∧ (loc.loopback = true ∨ loc.ip = 0)

/-- The addresses in the parameters are of the families they claim to be. -/
def Preferred.Typed (a : Preferred) : Prop :=
  (∀ r, a.v4 = some r → r.v6 = false ∧ r.port < 65536) ∧ (∀ r, a.v6 = some r → r.v6 = true ∧ r.port < 65536) ∧
  a.entry.cid ≠ [] ∧ a.entry.seq = 1

theorem Addr.of_code (a : Addr) (h : a.port < 65536) : Addr.ofCode a.code = a := by
  rcases a with ⟨v, i, p⟩
  have h : p < 65536 := h
  unfold Addr.ofCode Addr.code
  simp only [Addr.mk.injEq]
  cases v <;> simp <;> omega

/-! ## Lemmas about a move that is not forced -/

/-- The challenge each path waits for. -/
def waiting (c : Conn) (j : Nat) : List Nat :=
  match (c.heap j).st with
  | .probing _ d _ _ => [d]
  | _ => []

theorem waits_waiting (c : Conn) : Waits (waiting c) c := by
  intro j n d m s h
  unfold waiting
  rw [h]
  rfl

theorem findPath_addr (c : Conn) (loc rem mtu : Nat) :
    (((c.findPath loc rem mtu).1.heap (c.findPath loc rem mtu).2).loc = loc ∧
     ((c.findPath loc rem mtu).1.heap (c.findPath loc rem mtu).2).rem = rem) := by
  unfold Conn.findPath
  split
  · rename_i i hi
    have := List.find?_some hi
    simpa using this
  · dsimp only
    rw [upd_same]
    exact ⟨rfl, rfl⟩

/-- What a move that is not forced does. -/
structure Moved (loc rem : Nat) (c c' : Conn) : Prop where
  inv : Inv c'
  client : c'.client = c.client
  connected : c'.connected = c.connected
  paths : ∀ j ∈ c'.paths, (j ∈ c.paths ∧ (c'.heap j).loc = (c.heap j).loc ∧ (c'.heap j).rem = (c.heap j).rem) ∨
    ((c'.heap j).loc = loc ∧ (c'.heap j).rem = rem)
  valid : ∀ j, (c'.heap j).isValid = true → (c.heap j).isValid = true
  primary : c'.primary = c.primary ∨ ∃ q, c'.primary = some q ∧ (c.heap q).isValid = true

theorem migrate_moved {c : Conn} (h : Inv c) (loc rem mtu now : Nat) :
    Good (c.migrate loc rem mtu false now) (Moved loc rem c) := by
  have ff := Conn.findPath_found h loc rem mtu
  have fa := findPath_addr c loc rem mtu
  generalize hr : c.findPath loc rem mtu = r at ff fa
  have hw : Waits (waiting c) r.1 := by
    intro j n d m s hst
    rcases ff.heap j with h1 | h1
    · rw [h1] at hst; exact waits_waiting c j n d m s hst
    · exact absurd hst (h1.2.2.2 n d m s)
  let cause : Nat → Prop := fun j => false = true ∧ j = r.2
  unfold Conn.migrate
  split
  · exact Good.err (by decide)
  · rename_i hc
    have hp : c.primary ≠ none := fun hn => hc (Or.inr (Or.inr hn))
    have hcl : c.client = true := by
      cases hx : c.client with
      | true => rfl
      | false => exact absurd (Or.inl (by rw [hx]; simp)) hc
    have hne : r.1.paths ≠ [] := by
      intro hn
      exact hp (h.primNone (ff.paths.symm.trans hn))
    rw [hr]
    refine Good.bind (FP.ensure (cause := cause) ff.inv ff.avail hw hne) ?_
    intro c1 ⟨p1, hi1⟩
    refine (Conn.migratePath_good p1.inv hi1 p1.waits false now).mono ?_
    intro c3 p3
    have p := p1.trans p3
    refine ⟨p.inv, p.client.trans ff.client, p.connected.trans ff.connected, ?_, ?_, ?_⟩
    · intro j hj
      rcases p.mem j hj with hj | hj
      · subst hj
        exact Or.inr ⟨(p.addr r.2).1.trans fa.1, (p.addr r.2).2.trans fa.2⟩
      · rw [ff.paths] at hj
        left
        have hh : r.1.heap j = c.heap j := by
          rcases ff.heap j with h1 | h1
          · exact h1
          · exact absurd (h.lt j hj) (Nat.not_lt.mpr h1.1)
        refine ⟨hj, ?_⟩
        rw [← hh]
        exact p.addr j
    · intro j hj
      rcases p.valid j hj with h2 | h2
      · exact ff.valid j h2
      · exact absurd h2.1 (by decide)
    · rcases p.prim (ff.client.trans hcl) with h1 | ⟨q, h1, h2⟩
      · exact Or.inl (h1.trans ff.primary)
      · right
        refine ⟨q, h1, ?_⟩
        rcases p.valid q h2 with h3 | h3
        · exact ff.valid q h3
        · exact absurd h3.1 (by decide)

theorem migratePath_mem {c c' : Conn} {i : Nat} {force : Bool} {now : Nat} (h : Inv c) (hi : i ∈ c.paths)
    (hm : c.migratePath i force now = .ok c') : i ∈ c'.paths := by
  unfold Conn.migratePath at hm
  split at hm
  · cases hm
  · rw [Except.bind_eq_ok] at hm
    obtain ⟨c1, h1, hm⟩ := hm
    cases hm
    show i ∈ c1.paths
    unfold Conn.retarget at h1
    split at h1
    · rw [Except.bind_eq_ok] at h1
      obtain ⟨c2, h2, h1⟩ := h1
      cases h1
      show i ∈ c2.paths
      unfold Conn.selectPrimary at h2
      rw [Except.bind_eq_ok] at h2
      obtain ⟨c3, h3, h2⟩ := h2
      have e3 : c3.paths = c.paths := by
        unfold Conn.clearOld at h3
        (repeat' split at h3) <;> cases h3 <;> rfl
      dsimp only at h2
      split at h2
      · split at h2
        · cases h2
        · cases h2
          show i ∈ swapFront i c3.paths
          rw [e3]
          exact (swapFront_perm hi h.nodup).mem_iff.mpr hi
      · cases h2
        show i ∈ c3.paths
        rw [e3]; exact hi
    · cases h1; exact hi

/-- The only errors are panics. -/
def Sure {α : Type} (r : Except Err α) : Prop := ∀ e, r = .error e → e = .panic

theorem Sure.ok {α : Type} (a : α) : Sure (.ok a : Except Err α) := fun _ h => by cases h

theorem Sure.panic {α : Type} : Sure (.error .panic : Except Err α) := fun _ h => by cases h; rfl

theorem Sure.bind {α β : Type} {r : Except Err α} {f : α → Except Err β} (h : Sure r) (hf : ∀ a, Sure (f a)) :
    Sure (r >>= f) := by
  cases r with
  | error e => intro e' he; cases he; exact h _ rfl
  | ok a => exact hf a

theorem selectPrimary_sure (c : Conn) (i : Nat) : Sure (c.selectPrimary i) := by
  unfold Conn.selectPrimary
  refine Sure.bind ?_ (fun a => ?_)
  · unfold Conn.clearOld
    (repeat' split) <;> first | exact Sure.ok _ | exact Sure.panic
  · dsimp only
    (repeat' split) <;> first | exact Sure.ok _ | exact Sure.panic

theorem makePermanent_sure (c : Conn) (i : Nat) (e : Entry) : Sure (c.makePermanent i e) := by
  unfold Conn.makePermanent
  split
  · exact Sure.panic
  · refine Sure.bind ?_ (fun a => ?_)
    · unfold Conn.evict
      (repeat' split) <;> first | exact Sure.ok _ | exact Sure.panic
    · dsimp only
      split
      · exact selectPrimary_sure _ _
      · exact Sure.ok _

theorem ensurePermanent_sure (c : Conn) (i : Nat) (h : c.store ≠ []) : Sure (c.ensurePermanent i) := by
  unfold Conn.ensurePermanent
  split
  · split
    · exact makePermanent_sure _ _ _
    · rename_i hs; exact absurd hs h
  · exact Sure.ok _

theorem migratePath_sure (c : Conn) (i : Nat) (force : Bool) (now : Nat) : Sure (c.migratePath i force now) := by
  unfold Conn.migratePath
  split
  · exact Sure.panic
  · refine Sure.bind ?_ (fun a => Sure.ok _)
    unfold Conn.retarget
    split
    · exact Sure.bind (selectPrimary_sure _ _) (fun a => Sure.ok _)
    · exact Sure.ok _

theorem selectPrimary_primary {c c' : Conn} {i : Nat} (h : c.selectPrimary i = .ok c') : c'.primary = some i := by
  unfold Conn.selectPrimary at h
  rw [Except.bind_eq_ok] at h
  obtain ⟨c1, _, h⟩ := h
  dsimp only at h
  split at h
  · split at h
    · cases h
    · cases h; rfl
  · cases h; rfl

theorem migratePath_aim {c c' : Conn} {i : Nat} {force : Bool} {now : Nat} (h : c.migratePath i force now = .ok c') :
    c'.primary = some i ∨ c'.target = some i := by
  unfold Conn.migratePath at h
  split at h
  · cases h
  · rw [Except.bind_eq_ok] at h
    obtain ⟨c1, h1, h⟩ := h
    cases h
    unfold Conn.retarget at h1
    split at h1
    · rw [Except.bind_eq_ok] at h1
      obtain ⟨c2, h2, h1⟩ := h1
      cases h1
      have := selectPrimary_primary h2
      exact Or.inl this
    · cases h1
      exact Or.inr rfl

theorem Inv.store {c : Conn} (h : Inv c) {s : List Entry} (hs : ∀ e ∈ s, e.cid ≠ [] ∧ e.seq < 2 ^ 62) :
    Inv { c with store := s } := { h with storeNe := hs }

theorem addRemote_mem {s s' : List Entry} {e : Entry} (h : addRemote s e = .ok s') :
    e ∈ s' ∧ ∀ x ∈ s', x ∈ s ∨ x = e := by
  unfold addRemote at h
  split at h
  · rename_i hx
    cases h
    obtain ⟨a, ha, hae⟩ := List.any_eq_true.mp hx
    rw [decide_eq_true_eq] at hae
    subst hae
    exact ⟨ha, fun x hx => Or.inl hx⟩
  · split at h
    · cases h
    · cases h
      have hp := insertSeq_perm e s
      refine ⟨hp.mem_iff.mpr (by simp), fun x hx => ?_⟩
      rcases List.mem_cons.mp (hp.mem_iff.mp hx) with h | h
      · exact Or.inr h
      · exact Or.inl h

theorem addRemote_error {s : List Entry} {e : Entry} {x : Err} (h : addRemote s e = .error x) : x = .protocolViolation := by
  unfold addRemote at h
  split at h
  · cases h
  · split at h
    · cases h; rfl
    · cases h

theorem Addr.code_of (n : Nat) : (Addr.ofCode n).code = n := by
  unfold Addr.ofCode Addr.code
  dsimp only
  have h : (decide (n / 65536 % 2 = 1)).toNat = n / 65536 % 2 := by
    rcases Nat.mod_two_eq_zero_or_one (n / 65536) with h | h <;> rw [h] <;> rfl
  rw [h]
  omega

theorem check_ok {c : Conn} {confirmed noMigration : Bool} {r l' r' : Addr} {p : Nat} (hp : c.primary = some p)
    (h : checkMigrate c confirmed noMigration none (some r) = .ok (l', r')) :
    noMigration = false ∧ l' = .ofCode (c.heap p).loc ∧ r' = r ∧ l'.v6 = r.v6 ∧ r.ip ≠ 0 ∧ r.port ≠ 0 ∧
    (r.loopback = true → l'.loopback = true ∨ l'.ip = 0) := by
  unfold checkMigrate at h
  split at h
  · cases h
  split at h
  · cases h
  split at h
  · cases h
  rename_i hn
  split at h
  · cases h
  rw [hp] at h
  dsimp only [Option.getD] at h
  split at h
  · cases h
  rename_i hf
  split at h
  · cases h
  rename_i hw
  split at h
  · cases h
  rename_i hl
  cases h
  refine ⟨by simpa using hn, rfl, rfl, by simpa using hf, ?_, fun h => hw (Or.inr (Or.inr h)), ?_⟩
  · intro h0
    exact hw (Or.inr (Or.inl (by simp [Addr.unspecified, h0])))
  · intro hr
    by_cases h1 : (Addr.ofCode (c.heap p).loc).loopback = true
    · exact Or.inl h1
    · right
      by_contra h0
      refine hl ⟨?_, by simp [Addr.unspecified, h0]⟩
      rw [hr]
      simpa using h1

theorem check_error {c : Conn} {confirmed noMigration : Bool} {l r : Option Addr} {e : Err}
    (h : checkMigrate c confirmed noMigration l r = .error e) : e = .invalidMigration := by
  unfold checkMigrate at h
  dsimp only at h
  (repeat' split at h) <;> cases h <;> rfl

theorem of_typed {a : Preferred} (ht : a.Typed) {prev r : Addr} (h : a.of prev = some r) :
    r.v6 = prev.v6 ∧ r.port < 65536 := by
  unfold Preferred.of at h
  split at h
  · rename_i hv; rw [hv]; exact ht.2.1 r h
  · rename_i hv
    have : prev.v6 = false := by simpa using hv
    rw [this]; exact ht.1 r h

/-! ## The theorems -/

/-- What a client does when the handshake is confirmed. -/
structure Followed (disabled noMigration : Bool) (spa : Option Preferred) (c c' : Conn) : Prop where
  inv : Inv c'
  /-- A path that is new goes from the address in use to the address that the server prefers, if this
  is fit to be used and neither side has opted out. -/
  paths : ∀ j ∈ c'.paths, (j ∈ c.paths ∧ (c'.heap j).loc = (c.heap j).loc ∧ (c'.heap j).rem = (c.heap j).rem) ∨
    ∃ p a r, c.primary = some p ∧ spa = some a ∧ (a.v4 = some r ∨ a.v6 = some r) ∧ disabled = false ∧ noMigration = false ∧
      Fit (.ofCode (c.heap p).loc) (.ofCode (c.heap p).rem) r ∧
      (c'.heap j).loc = (c.heap p).loc ∧ Addr.ofCode (c'.heap j).rem = r
  /-- No path becomes valid by it. -/
  valid : ∀ j, (c'.heap j).isValid = true → (c.heap j).isValid = true
  /-- The path in use changes only if the other one had been validated. -/
  primary : c'.primary = c.primary ∨ ∃ q, c'.primary = some q ∧ (c.heap q).isValid = true
  /-- The connection ID is one of those that wait, unless it is taken into use. -/
  ids : ∀ e ∈ c'.store, e ∈ c.store ∨ ∃ a, spa = some a ∧ e = a.entry

theorem selectPrimary_store {c c' : Conn} {i : Nat} (h : c.selectPrimary i = .ok c') : c'.store = c.store := by
  unfold Conn.selectPrimary at h
  rw [Except.bind_eq_ok] at h
  obtain ⟨c1, h1, h⟩ := h
  have e1 : c1.store = c.store := by
    unfold Conn.clearOld at h1
    (repeat' split at h1) <;> cases h1 <;> rfl
  dsimp only at h
  (repeat' split at h) <;> cases h <;> exact e1

theorem makePermanent_store {c c' : Conn} {i : Nat} {e : Entry} (h : c.makePermanent i e = .ok c') :
    c'.store = c.store := by
  unfold Conn.makePermanent at h
  split at h
  · cases h
  · rw [Except.bind_eq_ok] at h
    obtain ⟨c1, h1, h⟩ := h
    have e1 : c1.store = c.store := by
      unfold Conn.evict at h1
      (repeat' split at h1) <;> cases h1 <;> rfl
    dsimp only at h
    split at h
    · have := selectPrimary_store h
      exact this.trans e1
    · cases h; exact e1

theorem migrate_store {c c' : Conn} {loc rem mtu now : Nat} {force : Bool}
    (h : c.migrate loc rem mtu force now = .ok c') : ∀ e ∈ c'.store, e ∈ c.store := by
  unfold Conn.migrate at h
  split at h
  · cases h
  · have hf : (c.findPath loc rem mtu).1.store = c.store := by
      unfold Conn.findPath; split <;> rfl
    generalize c.findPath loc rem mtu = r at h hf
    obtain ⟨c0, i⟩ := r
    dsimp only at h hf
    rw [Except.bind_eq_ok] at h
    obtain ⟨c1, h1, h⟩ := h
    have e1 : ∀ e ∈ c1.store, e ∈ c0.store := by
      unfold Conn.ensurePermanent at h1
      split at h1
      · split at h1
        · rename_i e rest hst
          rw [makePermanent_store h1, hst]
          exact fun x hx => List.mem_cons_of_mem _ hx
        · split at h1
          · split at h1
            · rw [makePermanent_store h1]; exact fun _ h => h
            · split at h1
              · rw [makePermanent_store h1]; exact fun _ h => h
              · cases h1
          · cases h1
      · cases h1; exact fun _ h => h
    have e2 : c'.store = c1.store := by
      unfold Conn.migratePath at h
      split at h
      · cases h
      · rw [Except.bind_eq_ok] at h
        obtain ⟨c2, h2, h⟩ := h
        cases h
        unfold Conn.retarget at h2
        split at h2
        · rw [Except.bind_eq_ok] at h2
          obtain ⟨c3, h3, h2⟩ := h2
          cases h2
          have := selectPrimary_store h3
          exact this
        · cases h2; rfl
    intro e he
    rw [e2] at he
    rw [← hf]
    exact e1 e he

theorem aim_good {c0 : Conn} (hi0 : Inv c0) (noMigration : Bool) (a : Preferred) (ha : a.Typed) (mtu now : Nat) :
    Good (aim c0 noMigration a mtu now) (fun c' => Followed false noMigration (some a) c0 c') := by
  have stay : Followed false noMigration (some a) c0 c0 :=
    ⟨hi0, fun j hj => Or.inl ⟨hj, rfl, rfl⟩, fun _ h => h, Or.inl rfl, fun e he => Or.inl he⟩
  unfold aim
  cases hp : c0.primary with
  | none => exact Good.err (by decide)
  | some p =>
    dsimp only
    cases ho : a.of (.ofCode (c0.heap p).rem) with
    | none => exact Good.ok stay
    | some r =>
      dsimp only
      split
      · exact Good.ok stay
      · rename_i hlb
        unfold ignoring migrateCall
        cases hc : checkMigrate c0 true noMigration none (some r) with
        | error e => rw [check_error hc]; exact Good.ok stay
        | ok x =>
          obtain ⟨l', r'⟩ := x
          obtain ⟨k1, k2, k3, k4, k5, k6, k7⟩ := check_ok hp hc
          dsimp only
          have g := migrate_moved hi0 l'.code r'.code mtu now
          cases hm : Conn.migrate c0 l'.code r'.code mtu false now with
          | error e =>
            cases e with
            | panic => exact absurd hm g.2
            | _ => exact Good.ok stay
          | ok c' =>
            have mv := g.1 c' hm
            obtain ⟨f1, f2⟩ := of_typed ha ho
            refine Good.ok ⟨mv.inv, ?_, mv.valid, mv.primary, fun e he => Or.inl (migrate_store hm e he)⟩
            intro j hj
            rcases mv.paths j hj with h | ⟨h1, h2⟩
            · exact Or.inl h
            · right
              refine ⟨p, a, r, hp, rfl, ?_, rfl, k1, ⟨⟨f1, ?_⟩, ⟨k5, k6⟩, ?_⟩, ?_, ?_⟩
              · unfold Preferred.of at ho
                split at ho
                · exact Or.inr ho
                · exact Or.inl ho
              · rw [k2] at k4; exact k4.symm
              · intro hr
                refine ⟨?_, ?_⟩
                · by_contra hx
                  exact hlb ⟨by simpa using hx, hr⟩
                · have := k7 hr
                  rw [k2] at this
                  exact this
              · rw [h1, k2]; exact Addr.code_of _
              · rw [h2, k3]; exact Addr.of_code r f2

/-- Whatever a server prefers and in whatever state its paths are, a client does what `Followed` says
and does not panic. -/
theorem C118_safe {c : Conn} (hi : Inv c) (disabled noMigration : Bool) (spa : Option Preferred)
    (ht : ∀ a, spa = some a → a.Typed) (mtu now : Nat) :
    Good (handshakeDone c disabled noMigration spa mtu now) (Followed disabled noMigration spa c) := by
  have stay : Followed disabled noMigration spa c c :=
    ⟨hi, fun j hj => Or.inl ⟨hj, rfl, rfl⟩, fun _ h => h, Or.inl rfl, fun e he => Or.inl he⟩
  unfold handshakeDone
  split
  · exact Good.err (by decide)
  · unfold toPreferred
    cases disabled with
    | true => exact Good.ok stay
    | false =>
      cases spa with
      | none => exact Good.ok stay
      | some a =>
        have ha := ht a rfl
        show Good (match addRemote c.store a.entry with
          | .error e => Except.error e
          | .ok s => aim { c with store := s } noMigration a mtu now) _
        cases hs : addRemote c.store a.entry with
        | error e => exact Good.err (by rw [addRemote_error hs]; decide)
        | ok s =>
          obtain ⟨m1, m2⟩ := addRemote_mem hs
          have hi' : Inv { c with store := s } := hi.store (fun e he => by
            rcases m2 e he with h | h
            · exact hi.storeNe e h
            · rw [h]; exact ⟨ha.2.2.1, by rw [ha.2.2.2]; decide⟩)
          refine (aim_good hi' noMigration a ha mtu now).mono ?_
          intro c' f
          refine ⟨f.inv, f.paths, f.valid, f.primary, fun e he => ?_⟩
          rcases f.ids e he with h | h
          · rcases m2 e h with h | h
            · exact Or.inl h
            · exact Or.inr ⟨a, rfl, h⟩
          · exact Or.inr h

/-- In particular at any point of any connection. -/
theorem C118_safe_reached {client : Bool} {h : Hist} (hr : Hist.Reached client h) (disabled noMigration : Bool)
    (spa : Option Preferred) (ht : ∀ a, spa = some a → a.Typed) (mtu now : Nat) :
    Good (handshakeDone h.c disabled noMigration spa mtu now) (Followed disabled noMigration spa h.c) :=
  C118_safe hr.hi.1.inv disabled noMigration spa ht mtu now

/-- The connection ends only if the frame is not allowed, or the connection ID of the preferred
address contradicts one that is known. -/
theorem C118_errors {c : Conn} (hi : Inv c) (hp : c.paths ≠ []) (disabled noMigration : Bool) (spa : Option Preferred)
    (ht : ∀ a, spa = some a → a.Typed) (mtu now : Nat) {e : Err}
    (h : handshakeDone c disabled noMigration spa mtu now = .error e) :
    e = .protocolViolation ∧ (c.client = false ∨ c.connected = false ∨
      ∃ a x, spa = some a ∧ x ∈ c.store ∧ x ≠ a.entry ∧
        (x.seq = a.entry.seq ∨ x.cid = a.entry.cid ∨ x.srt = a.entry.srt)) := by
  have hg := (C118_safe hi disabled noMigration spa ht mtu now).2
  unfold handshakeDone at h hg
  split at h
  · rename_i hc
    cases h
    refine ⟨rfl, ?_⟩
    rcases hc with hc | hc
    · exact Or.inl hc
    · exact Or.inr (Or.inl hc)
  · rename_i hc
    rw [if_neg hc] at hg
    unfold toPreferred at h hg
    cases disabled with
    | true => cases h
    | false =>
      cases spa with
      | none => cases h
      | some a =>
        replace h : (match addRemote c.store a.entry with
          | .error e => Except.error e
          | .ok s => aim { c with store := s } noMigration a mtu now) = .error e := h
        replace hg : (match addRemote c.store a.entry with
          | .error e => Except.error e
          | .ok s => aim { c with store := s } noMigration a mtu now) ≠ .error .panic := hg
        cases hs : addRemote c.store a.entry with
        | error x =>
          rw [hs] at h
          cases h
          refine ⟨addRemote_error hs, Or.inr (Or.inr ?_)⟩
          unfold addRemote at hs
          split at hs
          · cases hs
          · rename_i hn
            split at hs
            · rename_i hx
              obtain ⟨x, hx, hxe⟩ := List.any_eq_true.mp hx
              refine ⟨a, x, rfl, hx, ?_, ?_⟩
              · intro he
                exact hn (List.any_eq_true.mpr ⟨x, hx, by simpa using he⟩)
              · simpa [Entry.anyPartEqual, or_assoc] using hxe
            · cases hs
        | ok s =>
          exfalso
          rw [hs] at h hg
          dsimp only at h hg
          obtain ⟨p, l, hpl⟩ : ∃ p l, c.paths = p :: l := by
            cases hl : c.paths with
            | nil => exact absurd hl hp
            | cons p l => exact ⟨p, l, rfl⟩
          have hprim := (hi.prim p l hpl).1
          generalize hc0 : ({ c with store := s } : Conn) = c0 at h hg
          have hprim0 : c0.primary = some p := by rw [← hc0]; exact hprim
          unfold aim at h hg
          rw [hprim0] at h hg
          dsimp only at h hg
          split at h
          · cases h
          · rename_i ho
            rw [ho] at hg
            dsimp only at hg
            split at h
            · cases h
            · rename_i hlb
              rw [if_neg hlb] at hg
              unfold ignoring at h hg
              generalize migrateCall c0 true noMigration none _ mtu false now = r at h hg
              cases r with
              | ok x => cases h
              | error x => cases x <;> first | (exact hg rfl) | cases h

/-- A client that has not opted out tries the address that the server prefers, if the address is fit
to be used and the server has not disabled migration. -/
theorem C118_tried_partial {c : Conn} (hi : Inv c) (hcl : c.client = true) (hco : c.connected = true) {p : Nat}
    (hp : c.primary = some p) {a : Preferred} (ht : a.Typed) {r : Addr}
    (hr : a.of (.ofCode (c.heap p).rem) = some r)
    (hf : Fit (.ofCode (c.heap p).loc) (.ofCode (c.heap p).rem) r) (hport : (Addr.ofCode (c.heap p).loc).port ≠ 0)
    (hone : (Addr.ofCode (c.heap p).loc).loopback = true → r.loopback = true ∨ (Addr.ofCode (c.heap p).loc).ip = 0)
    {s : List Entry} (hs : addRemote c.store a.entry = .ok s) (mtu now : Nat) :
    ∃ c' i, handshakeDone c false false (some a) mtu now = .ok c' ∧ (c'.primary = some i ∨ c'.target = some i) ∧
      i ∈ c'.paths ∧ (c'.heap i).loc = (c.heap p).loc ∧ Addr.ofCode (c'.heap i).rem = r := by
  obtain ⟨m1, m2⟩ := addRemote_mem hs
  have hi' : Inv { c with store := s } := hi.store (fun e he => by
    rcases m2 e he with h | h
    · exact hi.storeNe e h
    · rw [h]; exact ⟨ht.2.2.1, by rw [ht.2.2.2]; decide⟩)
  have e0 : handshakeDone c false false (some a) mtu now = aim { c with store := s } false a mtu now := by
    unfold handshakeDone
    rw [if_neg (by simp [hcl, hco])]
    unfold toPreferred
    show (match addRemote c.store a.entry with
          | .error e => Except.error e
          | .ok s => aim { c with store := s } false a mtu now) = _
    rw [hs]
  rw [e0]
  generalize hc0 : ({ c with store := s } : Conn) = c0 at hi'
  have hprim0 : c0.primary = some p := by rw [← hc0]; exact hp
  have hheap : c0.heap = c.heap := by rw [← hc0]
  have hst : c0.store ≠ [] := by
    rw [← hc0]
    intro h
    have h : s = [] := h
    rw [h] at m1; cases m1
  have hcl0 : c0.client = true := by rw [← hc0]; exact hcl
  have hco0 : c0.connected = true := by rw [← hc0]; exact hco
  rw [← hheap] at hr hf hport hone ⊢
  have hck : checkMigrate c0 true false none (some r) = .ok (.ofCode (c0.heap p).loc, r) := by
    unfold checkMigrate
    rw [if_neg (by simp [hcl0]), if_neg (by decide), if_neg (by decide), if_neg (by simp), hprim0]
    dsimp only [Option.getD]
    rw [if_neg (by simp [hf.family.2]), if_neg, if_neg]
    · rintro ⟨h1, h2⟩
      have h2 : (Addr.ofCode (c0.heap p).loc).ip ≠ 0 := by simpa [Addr.unspecified] using h2
      cases hrl : r.loopback with
      | true =>
        rcases (hf.loopback hrl).2 with h3 | h3
        · rw [hrl, h3] at h1; cases h1
        · exact h2 h3
      | false =>
        rw [hrl] at h1
        have h1 : (Addr.ofCode (c0.heap p).loc).loopback = true := by simpa using h1
        rcases hone h1 with h3 | h3
        · rw [hrl] at h3; cases h3
        · exact h2 h3
    · rintro (h | h | h)
      · exact hport h
      · exact hf.whole.1 (by simpa [Addr.unspecified] using h)
      · exact hf.whole.2 h
  have g := migrate_moved hi' (Addr.ofCode (c0.heap p).loc).code r.code mtu now
  have hrport := (of_typed ht hr).2
  -- The move does not fail.
  obtain ⟨c', hm⟩ : ∃ c', c0.migrate (Addr.ofCode (c0.heap p).loc).code r.code mtu false now = .ok c' := by
    cases hm : c0.migrate (Addr.ofCode (c0.heap p).loc).code r.code mtu false now with
    | ok c' => exact ⟨c', rfl⟩
    | error e =>
      exfalso
      refine g.2 ?_
      rw [hm]
      have : e = .panic := by
        have hsure : Sure (c0.migrate (Addr.ofCode (c0.heap p).loc).code r.code mtu false now) := by
          unfold Conn.migrate
          rw [if_neg (by simp [hcl0, hco0, hprim0])]
          have hfs : (c0.findPath (Addr.ofCode (c0.heap p).loc).code r.code mtu).1.store = c0.store := by
            unfold Conn.findPath; split <;> rfl
          generalize c0.findPath (Addr.ofCode (c0.heap p).loc).code r.code mtu = x at hfs
          obtain ⟨c1, i⟩ := x
          exact Sure.bind (ensurePermanent_sure c1 i (by rw [show c1.store = c0.store from hfs]; exact hst))
            (fun c2 => migratePath_sure c2 i false now)
        exact hsure e hm
      rw [this]
  have mv := g.1 c' hm
  refine ⟨c', (c0.findPath (Addr.ofCode (c0.heap p).loc).code r.code mtu).2, ?_, ?_⟩
  · unfold aim
    rw [hprim0]
    dsimp only
    rw [hr]
    dsimp only
    rw [if_neg (by
      rintro ⟨h1, h2⟩
      rw [(hf.loopback h2).1] at h1
      cases h1)]
    unfold ignoring migrateCall
    rw [hck]
    dsimp only
    rw [hm]
  · have ff := Conn.findPath_found hi' (Addr.ofCode (c0.heap p).loc).code r.code mtu
    have fa := findPath_addr c0 (Addr.ofCode (c0.heap p).loc).code r.code mtu
    unfold Conn.migrate at hm
    rw [if_neg (by simp [hcl0, hco0, hprim0])] at hm
    generalize hx : c0.findPath (Addr.ofCode (c0.heap p).loc).code r.code mtu = x at hm ff fa
    obtain ⟨c1, i⟩ := x
    dsimp only at hm ff fa ⊢
    rw [Except.bind_eq_ok] at hm
    obtain ⟨c2, h2, hm⟩ := hm
    have hw : Waits (waiting c0) c1 := by
      intro j n d m s hst
      rcases ff.heap j with h1 | h1
      · rw [show c1.heap j = c0.heap j from h1] at hst; exact waits_waiting c0 j n d m s hst
      · exact absurd hst (h1.2.2.2 n d m s)
    have hne : c1.paths ≠ [] := by
      intro hn
      have := hi'.primNone (ff.paths.symm.trans hn)
      rw [hprim0] at this
      cases this
    obtain ⟨p2, hi2⟩ := (FP.ensure (cause := fun j => false = true ∧ j = i) ff.inv ff.avail hw hne).1 c2 h2
    have p3 := (Conn.migratePath_good p2.inv hi2 p2.waits false now).1 c' hm
    have paddr := (p2.trans p3).addr i
    refine ⟨migratePath_aim hm, ?_, ?_, ?_⟩
    · exact migratePath_mem p2.inv hi2 hm
    · rw [paddr.1, fa.1]; exact Addr.code_of _
    · rw [paddr.2, fa.2]; exact Addr.of_code r hrport

/-- When the answer to the probe of the path to move to comes, the path becomes valid and is the one in
use, unless another path waits for an answer with the same eight random bytes. -/
theorem C118_moves_when_probed {c : Conn} (hi : Inv c) {i d n now : Nat} {full : Bool} {s : Nat}
    (hm : i ∈ c.paths) (ht : c.target = some i) (hst : (c.heap i).st = .probing n d full s)
    (hone : ∀ j ∈ c.paths, ∀ n' full' s', (c.heap j).st = .probing n' d full' s' → j = i) :
    ∃ c', c.pathResponse d now = .ok c' ∧ c'.primary = some i ∧ c'.target = none ∧
      (c'.heap i).isValid = true ∧ Inv c' ∧ c'.paths.Perm c.paths := by
  have hacc : ((c.heap i).pathResponse d now).2 = true := by
    unfold Path.pathResponse
    rw [hst]
    dsimp only
    rw [if_pos rfl]
  cases hf : c.paths.find? (fun i => ((c.heap i).pathResponse d now).2) with
  | none => exact absurd hacc (List.find?_eq_none.mp hf i hm)
  | some j =>
    have hj := List.mem_of_find?_eq_some hf
    have hja := List.find?_some hf
    obtain ⟨k1, k2, k3, k4, k5, _⟩ := pathResponse_facts (hi.ok j) d now
    obtain ⟨⟨n', m', s', hst'⟩, hval, _⟩ := k5 hja
    have hji := hone j hj _ _ _ hst'
    subst hji
    have h1 : Inv (c.modify j (fun p => (p.pathResponse d now).1)) := hi.modify j k2 k3 k1
    have hv : ((c.modify j (fun p => (p.pathResponse d now).1)).heap j).isValid = true := by
      rw [modify_same]; exact hval
    have e0 : c.pathResponse d now =
        ({ c.modify j (fun p => (p.pathResponse d now).1) with target := none } : Conn).selectPrimary j := by
      unfold Conn.pathResponse
      rw [hf]
      dsimp only
      rw [if_pos (show (c.modify j _).target = some j from ht)]
    rw [e0]
    have hpre : Pre ({ c.modify j (fun p => (p.pathResponse d now).1) with target := none } : Conn) := by
      have := h1.pre
      exact ⟨this.nodup, this.len, this.lt, this.prim, this.old, this.cids, this.ok, this.storeNe⟩
    have g := Conn.selectPrimary_good hpre (i := j) hj
    cases hr : ({ c.modify j (fun p => (p.pathResponse d now).1) with target := none } : Conn).selectPrimary j with
    | error e =>
      have := selectPrimary_sure _ _ e hr
      rw [this] at hr
      exact absurd hr g.2
    | ok c' =>
      obtain ⟨g1, g2, g3, g4, _, _, g7, _⟩ := g.1 c' hr
      refine ⟨c', rfl, g4, g7, ?_, g1, g3⟩
      have hc : (core (c'.heap j)).isValid =
          (core ((c.modify j (fun p => (p.pathResponse d now).1)).heap j)).isValid := congrArg _ (g2.core j)
      exact hc.trans hv

/-- But if the server has disabled migration, its preferred address is not used, although RFC 9000
(section 18.2) disables only migration from the address of the handshake: the paths stay as they are. -/
theorem C118_ignored (c c' : Conn) (disabled : Bool) (spa : Option Preferred) (mtu now : Nat)
    (h : handshakeDone c disabled true spa mtu now = .ok c') :
    c'.paths = c.paths ∧ c'.primary = c.primary ∧ c'.target = c.target ∧ c'.heap = c.heap := by
  have key : ∀ (c c' : Conn) (a : Preferred), aim c true a mtu now = .ok c' → c' = c := by
    intro c c' a h
    unfold aim at h
    split at h
    · cases h
    · rename_i p hp
      split at h
      · cases h; rfl
      · rename_i r _
        split at h
        · cases h; rfl
        · unfold ignoring migrateCall at h
          cases hc : checkMigrate c true true none (some r) with
          | error e =>
            rw [hc, check_error hc] at h
            cases h; rfl
          | ok x => exact absurd (check_ok (l' := x.1) (r' := x.2) hp hc).1 (by decide)
  unfold handshakeDone at h
  split at h
  · cases h
  · unfold toPreferred at h
    split at h
    · cases h; exact ⟨rfl, rfl, rfl, rfl⟩
    · split at h
      · cases h
      · rw [key _ _ _ h]; exact ⟨rfl, rfl, rfl, rfl⟩

/-! ## A HANDSHAKE_DONE frame that comes again -/

def here : Addr := ⟨false, 3232235777, 5000⟩
def there : Addr := ⟨false, 3405803777, 443⟩
def better : Addr := ⟨false, 3405803778, 443⟩
def elsewhere : Addr := ⟨false, 3232235778, 5000⟩

def offer : Preferred := ⟨some better, none, ⟨1, [11], 101⟩⟩

/-- A connected client, its server's connection IDs 2 and 3. -/
def client : Hist := Hist.after true
  [.start here.code there.code 1200 0 [10] 100 0, .connected 5,
   .recv here.code there.code 1200 100 6 [.newCid ⟨2, [12], 102⟩ 0, .newCid ⟨3, [13], 103⟩ 0] .app]

/-- Some events one after the other. -/
def play : List Ev → Conn → Except Err Conn
  | [], c => .ok c
  | e :: es, c => do play es (← c.step e)

/-- What can be seen of the paths, the one in use first: addresses and connection IDs. -/
def seen (r : Except Err Conn) : List (Addr × Addr × Option Nat) :=
  match r with
  | .ok c => c.paths.map fun i => (Addr.ofCode (c.heap i).loc, Addr.ofCode (c.heap i).rem, (c.heap i).cid.map (·.seq))
  | .error _ => []

/-- The client follows the server, then its application goes back to the first address. -/
def moved : Except Err Conn := do
  let c ← handshakeDone client.c false false (some offer) 1200 10
  let c ← play [.write 100 77 false 11, .recv here.code better.code 1200 100 12 [.response 77] .app] c
  migrateCall c true false none (some there) 1200 true 20

/-- A server may send the frame again, because an acknowledgement was lost.  The client then moves to the
preferred address once more, against what its application has asked for. -/
theorem C118_repeated_moves_back :
    seen moved = [(here, there, some 0), (here, better, some 1)] ∧
    seen (moved >>= fun c => handshakeDone c false false (some offer) 1200 30) =
      [(here, better, some 1), (here, there, some 0)] := by
  decide +kernel

/-- And it takes in the connection ID again, which is in use already, and uses it for two paths. -/
theorem C118_repeated_shares_id :
    seen (do
      let c ← moved
      let c ← handshakeDone c false false (some offer) 1200 30
      migrateCall c true false (some elsewhere) none 1200 false 40) =
    [(here, better, some 1), (here, there, some 0), (elsewhere, better, some 1)] := by
  decide +kernel

/-! ## Examples -/

example : Inv client.c ∧ client.c.client = true ∧ client.c.connected = true ∧
    (∃ p, client.c.primary = some p ∧ offer.of (.ofCode (client.c.heap p).rem) = some better ∧
      Addr.ofCode (client.c.heap p).loc = here ∧ Addr.ofCode (client.c.heap p).rem = there) ∧
    (∃ s, addRemote client.c.store offer.entry = .ok s) :=
  ⟨(Hist.Reached.hi (Hist.after_reached true _)).1.inv, by decide +kernel, by decide +kernel,
    ⟨0, by decide +kernel, by decide +kernel, by decide +kernel, by decide +kernel⟩,
    ⟨[⟨1, [11], 101⟩, ⟨2, [12], 102⟩, ⟨3, [13], 103⟩], by decide +kernel⟩⟩

example : offer.Typed ∧ Fit here there better := by
  refine ⟨⟨?_, ?_, by decide, rfl⟩, ⟨by decide, by decide⟩, by decide, by decide⟩
  · intro r h
    injection h with h
    subst h
    decide
  · intro r h
    cases h

/-- The client has sent its probe, and its answer is awaited: the hypotheses of `C118_moves_when_probed`. -/
example : (match handshakeDone client.c false false (some offer) 1200 10 >>= play [.write 100 77 false 11] with
    | .ok c => match c.target with
      | some i => c.paths.contains i && c.primary != some i && (waiting c i == [77]) &&
          c.paths.all (fun j => waiting c j != [77] || j == i)
      | none => false
    | .error _ => false) = true := by decide +kernel

/-- Another connection ID with the same number ends the connection. -/
example : (match handshakeDone client.c false false (some ⟨some better, none, ⟨2, [11], 101⟩⟩) 1200 10 with
    | .error .protocolViolation => true
    | _ => false) = true := by decide +kernel

end Neqo.Path
