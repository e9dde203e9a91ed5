import Verif.H3.SettingsProps
import Verif.Tparams.Create

/-!
# What an application configures for HTTP/3 (neqo-http3/src/conn_params.rs)

The parameters of the transport are `Tp.Config`; those of QPACK that stay local are left out.
-/
namespace Neqo.H3
open Neqo.Codec

/-! ## The model -/

/-- `Http3Parameters` (conn_params.rs:18-26). -/
structure HConfig where
  conn : Tp.Config
  table : Nat
  blocked : Nat
  webTransport : Bool
  connect : Bool
  datagram : Bool

/-- The default (conn_params.rs:29-38, 11-15) with `qpack::Settings::default`
(neqo-qpack/src/lib.rs:45-53). -/
def HConfig.dflt : HConfig :=
  { conn := Tp.Config.dflt, table := 65536, blocked := 20, webTransport := false, connect := false, datagram := true }

/-- The calls that an application can make. -/
inductive HCall where
  | connection (c : Tp.Config)
  | table (v : Nat)
  | blocked (v : UInt16)
  | webTransport (b : Bool)
  | connect (b : Bool)
  | datagram (b : Bool)

/-- `connection_parameters` (conn_params.rs:48-51), `max_table_size_decoder` (72-75) with the assertion
of `qpack::Settings::max_table_size_decoder` (neqo-qpack/src/lib.rs:69-73), `max_blocked_streams`
(83-86), `webtransport` (118-122), `connect` (161-165), `http3_datagram` (174-177); `none` is a panic.
`qpack` (54-57) is the two calls for `qpack::Settings` together. -/
def HConfig.call (c : HConfig) : HCall → Option HConfig
  | .connection x => some { c with conn := x }
  | .table v => if v ≤ 1073741823 then some { c with table := v } else none
  | .blocked v => some { c with blocked := v.toNat }
  | .webTransport b => some { c with webTransport := b, connect := c.connect || b }
  | .connect b => some { c with connect := b, webTransport := c.webTransport && b }
  | .datagram b => some { c with datagram := b }

/-- A series of calls. -/
def HConfig.calls : HConfig → List HCall → Option HConfig
  | c, [] => some c
  | c, x :: xs =>
    match c.call x with
    | some c => c.calls xs
    | none => none

/-- `webtransport_enabled` (conn_params.rs:132-154); `none` is the failed assertion. -/
def HConfig.webTransportEnabled (c : HConfig) : Option Bool :=
  if !c.webTransport then some false
  else if !c.connect then none
  else if !c.datagram then some false
  else if c.conn.datagramSize = 0 then some false
  else if !c.conn.resetStreamAt then some false
  else some true

/-- The arguments of `HSettings::from` (settings.rs:225-250). -/
def HConfig.params (c : HConfig) : Option Params :=
  match c.webTransportEnabled with
  | none => none
  | some w => some { maxTable := c.table, maxBlocked := c.blocked, webTransport := w, datagram := c.datagram, connect := c.connect }

/-! ## What the application asked for -/

/-- The last answer among the calls, or the default. -/
def lastCall {α : Type} (asked : HCall → Option α) (dflt : α) (xs : List HCall) : α :=
  ((xs.filterMap asked).getLast?).getD dflt

def askedTable : HCall → Option Nat
  | .table v => some v
  | _ => none

def askedBlocked : HCall → Option Nat
  | .blocked v => some v.toNat
  | _ => none

/-- WebTransport is switched on and off as such, and off with extended CONNECT. -/
def askedWebTransport : HCall → Option Bool
  | .webTransport b => some b
  | .connect false => some false
  | _ => none

/-- Extended CONNECT is switched on and off as such, and on with WebTransport. -/
def askedConnect : HCall → Option Bool
  | .connect b => some b
  | .webTransport true => some true
  | _ => none

def askedDatagrams : HCall → Option Bool
  | .datagram b => some b
  | _ => none

def askedConnection : HCall → Option Tp.Config
  | .connection c => some c
  | _ => none

/-! ## Lemmas -/

theorem lastCall_cons {α : Type} {asked : HCall → Option α} {a : α} {x : HCall} {xs : List HCall} :
    lastCall asked a (x :: xs) = lastCall asked ((asked x).getD a) xs := by
  unfold lastCall
  rw [List.filterMap_cons]
  cases asked x with
  | none => rfl
  | some y => simp only [List.getLast?_cons, Option.getD_some]

theorem calls_last {α : Type} {asked : HCall → Option α} {proj : HConfig → α}
    (h1 : ∀ c x c', HConfig.call c x = some c' → proj c' = (asked x).getD (proj c)) :
    ∀ {xs : List HCall} {c c' : HConfig}, c.calls xs = some c' → proj c' = lastCall asked (proj c) xs := by
  intro xs
  induction xs with
  | nil => intro c c' h; cases h; rfl
  | cons x xs ih =>
    intro c c' h
    unfold HConfig.calls at h
    cases hx : c.call x with
    | none => simp [hx] at h
    | some d =>
      simp only [hx] at h
      rw [lastCall_cons, ← h1 c x d hx]
      exact ih h

theorem calls_inv {P : HConfig → Prop} (h1 : ∀ c x c', P c → HConfig.call c x = some c' → P c') :
    ∀ {xs : List HCall} {c c' : HConfig}, P c → c.calls xs = some c' → P c' := by
  intro xs
  induction xs with
  | nil => intro c c' hc h; cases h; exact hc
  | cons x xs ih =>
    intro c c' hc h
    unfold HConfig.calls at h
    cases hx : c.call x with
    | none => simp [hx] at h
    | some d =>
      simp only [hx] at h
      exact ih (h1 c x d hc hx) h

macro "call_cases" : tactic => `(tactic| (
  intro c x c' h
  cases x <;> unfold HConfig.call at h <;> dsimp only at h <;>
    (repeat' split at h) <;> first | contradiction | (cases h; simp_all [askedTable, askedBlocked, askedDatagrams, askedConnection])))

theorem call_table {xs : List HCall} {c : HConfig} (h : HConfig.dflt.calls xs = some c) :
    c.table = lastCall askedTable 65536 xs :=
  calls_last (proj := HConfig.table) (by call_cases) h

theorem call_blocked {xs : List HCall} {c : HConfig} (h : HConfig.dflt.calls xs = some c) :
    c.blocked = lastCall askedBlocked 20 xs :=
  calls_last (proj := HConfig.blocked) (by call_cases) h

theorem call_datagram {xs : List HCall} {c : HConfig} (h : HConfig.dflt.calls xs = some c) :
    c.datagram = lastCall askedDatagrams true xs :=
  calls_last (proj := HConfig.datagram) (by call_cases) h

theorem call_connection {xs : List HCall} {c : HConfig} (h : HConfig.dflt.calls xs = some c) :
    c.conn = lastCall askedConnection Tp.Config.dflt xs :=
  calls_last (proj := HConfig.conn) (by call_cases) h

theorem call_connect {xs : List HCall} {c : HConfig} (h : HConfig.dflt.calls xs = some c) :
    c.connect = lastCall askedConnect false xs := by
  refine calls_last (proj := HConfig.connect) ?_ h
  intro c x c' h
  cases x with
  | webTransport b =>
    unfold HConfig.call at h
    cases h
    cases b <;> simp [askedConnect]
  | table v =>
    unfold HConfig.call at h
    dsimp only at h
    split at h
    · cases h; rfl
    · cases h
  | connection _ => unfold HConfig.call at h; cases h; rfl
  | blocked _ => unfold HConfig.call at h; cases h; rfl
  | connect _ => unfold HConfig.call at h; cases h; rfl
  | datagram _ => unfold HConfig.call at h; cases h; rfl

theorem call_webTransport {xs : List HCall} {c : HConfig} (h : HConfig.dflt.calls xs = some c) :
    c.webTransport = lastCall askedWebTransport false xs := by
  refine calls_last (proj := HConfig.webTransport) ?_ h
  intro c x c' h
  cases x with
  | connect b =>
    unfold HConfig.call at h
    cases h
    cases b <;> simp [askedWebTransport]
  | table v =>
    unfold HConfig.call at h
    dsimp only at h
    split at h
    · cases h; rfl
    · cases h
  | connection _ => unfold HConfig.call at h; cases h; rfl
  | blocked _ => unfold HConfig.call at h; cases h; rfl
  | webTransport _ => unfold HConfig.call at h; cases h; rfl
  | datagram _ => unfold HConfig.call at h; cases h; rfl

theorem call_inv {xs : List HCall} {c : HConfig} (h : HConfig.dflt.calls xs = some c) :
    (c.webTransport = true → c.connect = true) ∧ c.table < 2 ^ 30 ∧ c.blocked < 2 ^ 16 := by
  refine calls_inv (P := fun c => (c.webTransport = true → c.connect = true) ∧ c.table < 2 ^ 30 ∧ c.blocked < 2 ^ 16)
    ?_ ⟨by decide, by decide, by decide⟩ h
  intro c x c' hc h
  cases x with
  | connect b => unfold HConfig.call at h; cases h; exact ⟨by cases b <;> simp, hc.2.1, hc.2.2⟩
  | table v =>
    unfold HConfig.call at h
    dsimp only at h
    split at h
    · cases h; exact ⟨hc.1, by dsimp only; omega, hc.2.2⟩
    · cases h
  | connection _ => unfold HConfig.call at h; cases h; exact hc
  | blocked v => unfold HConfig.call at h; cases h; exact ⟨hc.1, hc.2.1, v.toNat_lt⟩
  | webTransport b => unfold HConfig.call at h; cases h; exact ⟨by intro hb; dsimp only at hb ⊢; rw [hb]; simp, hc.2.1, hc.2.2⟩
  | datagram _ => unfold HConfig.call at h; cases h; exact hc

theorem enabled_iff {c : HConfig} (hi : c.webTransport = true → c.connect = true) :
    ∃ w, c.webTransportEnabled = some w ∧
      (w = true ↔ c.webTransport = true ∧ c.datagram = true ∧ c.conn.datagramSize ≠ 0 ∧ c.conn.resetStreamAt = true) := by
  unfold HConfig.webTransportEnabled
  cases hw : c.webTransport with
  | false => exact ⟨false, rfl, by simp⟩
  | true =>
    rw [hi hw]
    cases hd : c.datagram with
    | false => exact ⟨false, rfl, by simp⟩
    | true =>
      by_cases hz : c.conn.datagramSize = 0
      · exact ⟨false, by simp [hz], by simp [hz]⟩
      · cases hr : c.conn.resetStreamAt with
        | false => exact ⟨false, by simp [hz], by simp⟩
        | true => exact ⟨true, by simp [hz], by simp [hz]⟩

/-! ## The theorems -/

/-- Whatever calls an application makes without a panic, the settings can be written, and the peer reads
from them: the size of the table and the number of blocked streams that were set last, extended CONNECT
and datagrams as they were switched last, and WebTransport exactly if it was switched on, and datagrams
for HTTP/3, datagrams of the transport and reliable resets are on. -/
theorem C115_told {xs : List HCall} {c : HConfig} (h : HConfig.dflt.calls xs = some c) :
    ∃ p bs s, c.params = some p ∧ (Settings.ofParams p).encode = some bs ∧ Settings.decode bs = .ok s ∧
      s.get .maxTableCapacity = lastCall askedTable 65536 xs ∧
      s.get .blockedStreams = lastCall askedBlocked 20 xs ∧
      (s.get .enableH3Datagram = 1 ↔ lastCall askedDatagrams true xs = true) ∧
      (s.get .enableConnect = 1 ↔ lastCall askedConnect false xs = true) ∧
      (s.get .enableWebTransport = 1 ↔ lastCall askedWebTransport false xs = true ∧
        lastCall askedDatagrams true xs = true ∧
        (lastCall askedConnection Tp.Config.dflt xs).datagramSize ≠ 0 ∧
        (lastCall askedConnection Tp.Config.dflt xs).resetStreamAt = true) := by
  obtain ⟨h1, h2, h3⟩ := call_inv h
  obtain ⟨w, hw, hiff⟩ := enabled_iff h1
  obtain ⟨bs, s, b1, b2, b3, b4, b5, b6, b7⟩ := C66_configured
    { maxTable := c.table, maxBlocked := c.blocked, webTransport := w, datagram := c.datagram, connect := c.connect } ⟨h2, h3⟩
  refine ⟨_, bs, s, by unfold HConfig.params; rw [hw], b1, b2, ?_, ?_, ?_, ?_, ?_⟩
  · rw [b3, call_table h]
  · rw [b4, call_blocked h]
  · rw [b6, call_datagram h]
  · rw [b7, call_connect h]
  · rw [b5, hiff, call_webTransport h, call_datagram h, call_connection h]

/-- Who offers WebTransport offers all that it needs: extended CONNECT and datagrams in the settings, and
in the transport parameters of the same connection datagrams and reliable resets. -/
theorem C115_webtransport_complete {xs : List HCall} {c : HConfig} {p : Params} {bs : Bytes} {s : Settings}
    (h : HConfig.dflt.calls xs = some c) (hp : c.params = some p) (he : (Settings.ofParams p).encode = some bs)
    (hd : Settings.decode bs = .ok s) (hw : s.get .enableWebTransport = 1)
    {server : Bool} {current : Nat} {other : List Nat} {scid cid srt : Bytes} :
    s.get .enableConnect = 1 ∧ s.get .enableH3Datagram = 1 ∧
    ∃ t, Tp.create c.conn server current other scid (some (cid, srt)) = .ok (some t) ∧
      (∃ n, 0 < n ∧ t .maxDatagramFrameSize = some (.int n)) ∧ t .resetStreamAt = some .empty := by
  obtain ⟨p', bs', s', k1, k2, k3, -, -, k6, k7, k8⟩ := C115_told h
  rw [hp] at k1
  cases k1
  rw [he] at k2
  cases k2
  rw [hd] at k3
  cases k3
  obtain ⟨a1, a2, a3, a4⟩ := k8.mp hw
  refine ⟨?_, k6.mpr a2, _, Tp.create_eq, ?_, ?_⟩
  · rw [k7, ← call_connect h]
    exact (call_inv h).1 (by rw [call_webTransport h]; exact a1)
  · rw [← call_connection h] at a3
    refine ⟨c.conn.datagramSize, by omega, ?_⟩
    show Tp.stored 0 c.conn.datagramSize = _
    unfold Tp.stored
    rw [if_neg (by omega)]
  · rw [← call_connection h] at a4
    show (if c.conn.resetStreamAt then some Tp.Value.empty else none) = _
    rw [a4]
    rfl

/-- A table that QPACK does not allow is rejected when it is set. -/
theorem C115_rejected {c : HConfig} {v : Nat} (h : 2 ^ 30 ≤ v) : c.call (.table v) = none := by
  unfold HConfig.call
  dsimp only
  rw [if_neg (by omega)]

/-- Switching WebTransport on and off again is not without effect: extended CONNECT stays on. -/
theorem C115_connect_stays {xs : List HCall} {c : HConfig}
    (h : HConfig.dflt.calls (xs ++ [.webTransport true, .webTransport false]) = some c) :
    c.connect = true ∧ c.webTransport = false := by
  rw [call_connect h, call_webTransport h]
  have h1 : [HCall.webTransport true, .webTransport false].filterMap askedConnect = [true] := rfl
  have h2 : [HCall.webTransport true, .webTransport false].filterMap askedWebTransport = [true, false] := rfl
  unfold lastCall
  rw [List.filterMap_append, List.filterMap_append, h1, h2]
  simp

/-! ## Examples -/

/-- WebTransport is asked for, then reliable resets are switched off. -/
def exCalls : List HCall :=
  [.webTransport true, .table 4096, .connection { Tp.Config.dflt with resetStreamAt := false }, .blocked 7]

example : (HConfig.dflt.calls exCalls).isSome = true ∧ lastCall askedWebTransport false exCalls = true ∧
    lastCall askedConnect false exCalls = true ∧
    (lastCall askedConnection Tp.Config.dflt exCalls).resetStreamAt = false := by decide

/-- Here it is offered. -/
example :
    ∃ c p bs s, HConfig.dflt.calls [.connect false, .webTransport true] = some c ∧ c.params = some p ∧
      (Settings.ofParams p).encode = some bs ∧ Settings.decode bs = .ok s ∧ s.get .enableWebTransport = 1 := by
  have h : HConfig.dflt.calls [.connect false, .webTransport true] =
      some { HConfig.dflt with webTransport := true, connect := true } := rfl
  obtain ⟨p, bs, s, h1, h2, h3, -, -, -, -, h8⟩ := C115_told h
  exact ⟨_, p, bs, s, h, h1, h2, h3, h8.mpr (by decide)⟩

end Neqo.H3
