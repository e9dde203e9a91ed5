import Verif.Tparams.Props
import Verif.Lib.Basic

/-!
# Configurations and the parameters made from them (neqo-transport/src/connection/params.rs)

Times are in nanoseconds.  Settings that have no effect on the transport parameters are left out.
-/
namespace Neqo.Tp
open Neqo.Codec

/-! ## The model -/

/-- `PreferredAddressConfig` (connection/params.rs:95-102). -/
inductive PrefConfig where
  | disabled
  | default
  | address (v4 v6 : Option (Bytes × Nat))
deriving DecidableEq, Repr

/-- The fields of `ConnectionParameters` (connection/params.rs:109-169) that reach the peer. -/
structure Config where
  maxData : Nat
  streamDataBidiRemote : Nat
  streamDataBidiLocal : Nat
  streamDataUni : Nat
  streamsBidi : Nat
  streamsUni : Nat
  idleTimeout : Nat
  preferred : PrefConfig
  datagramSize : Nat
  grease : Bool
  disableMigration : Bool
  scone : Bool
  resetStreamAt : Bool

/-- The default (connection/params.rs:171-205), with its constants (35, 41, 58, 69, 90, 214). -/
def Config.dflt : Config :=
  { maxData := 2097152, streamDataBidiRemote := 1048576, streamDataBidiLocal := 1048576, streamDataUni := 1048576,
    streamsBidi := 100, streamsUni := 100, idleTimeout := 30000000000, preferred := .default, datagramSize := 65535,
    grease := true, disableMigration := false, scone := false, resetStreamAt := true }

/-- The calls that an application can make. -/
inductive Setting where
  | maxData (v : Nat)
  | maxStreams (uni : Bool) (v : Nat)
  | maxStreamData (uni remote : Bool) (v : Nat)
  | preferredAddress (v4 v6 : Option (Bytes × Nat))
  | disablePreferredAddress
  | idleTimeout (t : Nat)
  | datagramSize (v : Nat)
  | grease (b : Bool)
  | disableMigration (b : Bool)
  | scone (b : Bool)
  | resetStreamAt (b : Bool)

/-- `Duration::as_millis`, of nanoseconds. -/
def asMillis (t : Nat) : Nat := t / 1000000

/-- `max_data` (connection/params.rs:274-277), `max_streams` (291-302), `max_stream_data` (311-328),
`preferred_address` (332-335) of an address made by `PreferredAddress::new` (tparams.rs:101-112),
`disable_preferred_address` (339-342), `idle_timeout` (364-368), `datagram_size` (411-414), `grease`
(461-464), `disable_migration` (467-470), `scone` and `reliable_stream_reset` (544-558): a failed
assertion is a panic. -/
def Config.setting (c : Config) : Setting → Except Err Config
  | .maxData v => .ok { c with maxData := v }
  | .maxStreams uni v =>
    if v ≤ 1152921504606846976 then
      if uni then .ok { c with streamsUni := v } else .ok { c with streamsBidi := v }
    else .error .panic
  | .maxStreamData uni remote v =>
    if v < 4611686018427387904 then
      match uni, remote with
      | false, false => .ok { c with streamDataBidiLocal := v }
      | false, true => .ok { c with streamDataBidiRemote := v }
      | true, false => .error .panic
      | true, true => .ok { c with streamDataUni := v }
    else .error .panic
  | .preferredAddress v4 v6 =>
    if (v4.isSome || v6.isSome) && addrOk 4 v4 && addrOk 16 v6 then .ok { c with preferred := .address v4 v6 }
    else .error .panic
  | .disablePreferredAddress => .ok { c with preferred := .disabled }
  | .idleTimeout t =>
    if asMillis t < 4611686018427387904 then .ok { c with idleTimeout := t } else .error .panic
  | .datagramSize v => .ok { c with datagramSize := v }
  | .grease b => .ok { c with grease := b }
  | .disableMigration b => .ok { c with disableMigration := b }
  | .scone b => .ok { c with scone := b }
  | .resetStreamAt b => .ok { c with resetStreamAt := b }

/-- A series of calls. -/
def Config.settings : Config → List Setting → Except Err Config
  | c, [] => .ok c
  | c, s :: ss => do
    let c ← c.setting s
    c.settings ss

/-- `if … { set_empty(…) }` (connection/params.rs:588-599). -/
def setEmptyIf (b : Bool) (p : Params) (i : PId) : Except Err Params := if b then setEmpty p i else .ok p

/-- The preferred address (connection/params.rs:624-638): only of a server, with a connection id from
`preferred_address_cid` (cid.rs:503-521), which fails, here `none`, if none is to be had. -/
def setPreferred (c : Config) (server : Bool) (cid : Option (Bytes × Bytes)) (p : Params) : Option Params :=
  match c.preferred with
  | .address v4 v6 =>
    if server then
      match cid with
      | some (cid, srt) => some (p.set .preferredAddress (.preferred v4 v6 cid srt))
      | none => none
    else some p
  | _ => some p

/-- `create_transport_parameter` (connection/params.rs:575-642), with the versions that
`TransportParametersHandler::new` (tparams.rs:731-742) sets and, at the end, the source connection id
that `Connection::new` (connection/mod.rs:431-432) adds.  `none` is `ConnectionIdsExhausted`. -/
def create (c : Config) (server : Bool) (current : Nat) (other : List Nat) (scid : Bytes)
    (cid : Option (Bytes × Bytes)) : Except Err (Option Params) := do
  let p := Params.set (fun _ => none) .versionInformation (.versions current other)
  let p ← setInteger p .activeConnectionIdLimit 8
  let p ← setEmptyIf c.disableMigration p .disableMigration
  let p ← setEmptyIf c.grease p .greaseQuicBit
  let p ← setEmptyIf c.scone p .scone
  let p ← setEmptyIf c.resetStreamAt p .resetStreamAt
  let p ← setInteger p .maxAckDelay 20
  let p ← setInteger p .minAckDelay 1000
  let p ← setInteger p .initialMaxData c.maxData
  let p ← setInteger p .initialMaxStreamDataBidiLocal c.streamDataBidiLocal
  let p ← setInteger p .initialMaxStreamDataBidiRemote c.streamDataBidiRemote
  let p ← setInteger p .initialMaxStreamDataUni c.streamDataUni
  let p ← setInteger p .initialMaxStreamsBidi c.streamsBidi
  let p ← setInteger p .initialMaxStreamsUni c.streamsUni
  let p ← setInteger p .idleTimeout (asMillis c.idleTimeout)
  match setPreferred c server cid p with
  | none => return none
  | some p =>
    let p ← setInteger p .maxDatagramFrameSize c.datagramSize
    let p ← setBytes p .initialSourceCid scid
    return some p

/-! ## What the application asked for -/

/-- The last value that was asked for, or the default. -/
def lastOf {α : Type} (asked : Setting → Option α) (dflt : α) (ss : List Setting) : α :=
  ((ss.filterMap asked).getLast?).getD dflt

def askedMaxData : Setting → Option Nat
  | .maxData v => some v
  | _ => none

def askedStreams (uni : Bool) : Setting → Option Nat
  | .maxStreams u v => if u = uni then some v else none
  | _ => none

def askedStreamData (uni remote : Bool) : Setting → Option Nat
  | .maxStreamData u r v => if u = uni ∧ r = remote then some v else none
  | _ => none

def askedIdle : Setting → Option Nat
  | .idleTimeout t => some t
  | _ => none

def askedDatagram : Setting → Option Nat
  | .datagramSize v => some v
  | _ => none

def askedGrease : Setting → Option Bool
  | .grease b => some b
  | _ => none

def askedNoMigration : Setting → Option Bool
  | .disableMigration b => some b
  | _ => none

def askedScone : Setting → Option Bool
  | .scone b => some b
  | _ => none

def askedResetAt : Setting → Option Bool
  | .resetStreamAt b => some b
  | _ => none

/-- Addresses, or none. -/
def askedAddress : Setting → Option (Option (Option (Bytes × Nat) × Option (Bytes × Nat)))
  | .preferredAddress v4 v6 => some (some (v4, v6))
  | .disablePreferredAddress => some none
  | _ => none

/-- An address of `n` bytes with a port, as the types of the code have it. -/
def Typed (n : Nat) : Option (Bytes × Nat) → Prop
  | none => True
  | some (ip, port) => ip.length = n ∧ port < 65536

/-- The addresses of a setting are of the right kinds. -/
def Setting.Typed : Setting → Prop
  | .preferredAddress v4 v6 => Tp.Typed 4 v4 ∧ Tp.Typed 16 v6
  | _ => True

/-! ## Lemmas -/

theorem lastOf_nil {α : Type} {asked : Setting → Option α} {a : α} : lastOf asked a [] = a := rfl

theorem lastOf_cons {α : Type} {asked : Setting → Option α} {a : α} {s : Setting} {ss : List Setting} :
    lastOf asked a (s :: ss) = lastOf asked ((asked s).getD a) ss := by
  unfold lastOf
  rw [List.filterMap_cons]
  cases asked s with
  | none => rfl
  | some x =>
    simp only [List.getLast?_cons, Option.getD_some]

theorem settings_last {α : Type} {asked : Setting → Option α} {proj : Config → α}
    (h1 : ∀ c s c', Config.setting c s = .ok c' → proj c' = (asked s).getD (proj c)) :
    ∀ {ss : List Setting} {c c' : Config}, c.settings ss = .ok c' → proj c' = lastOf asked (proj c) ss := by
  intro ss
  induction ss with
  | nil => intro c c' h; cases h; rfl
  | cons s ss ih =>
    intro c c' h
    unfold Config.settings at h
    obtain ⟨d, hd, h⟩ := Except.bind_eq_ok.mp h
    rw [lastOf_cons, ← h1 c s d hd]
    exact ih h

/-- The addresses of a configuration. -/
def Config.addresses (c : Config) : Option (Option (Bytes × Nat) × Option (Bytes × Nat)) :=
  match c.preferred with
  | .address v4 v6 => some (v4, v6)
  | _ => none

macro "setting_cases" : tactic => `(tactic| (
  intro c s c' h
  cases s <;> unfold Config.setting at h <;> dsimp only at h <;>
    (repeat' split at h) <;> first | contradiction | (cases h; simp_all [askedMaxData, askedStreams,
      askedStreamData, askedIdle, askedDatagram, askedGrease, askedNoMigration, askedScone, askedResetAt,
      askedAddress, Config.addresses])))

theorem last_maxData {ss : List Setting} {c : Config} (h : Config.dflt.settings ss = .ok c) :
    c.maxData = lastOf askedMaxData 2097152 ss :=
  settings_last (proj := Config.maxData) (by setting_cases) h

theorem last_streamsBidi {ss : List Setting} {c : Config} (h : Config.dflt.settings ss = .ok c) :
    c.streamsBidi = lastOf (askedStreams false) 100 ss :=
  settings_last (proj := Config.streamsBidi) (by setting_cases) h

theorem last_streamsUni {ss : List Setting} {c : Config} (h : Config.dflt.settings ss = .ok c) :
    c.streamsUni = lastOf (askedStreams true) 100 ss :=
  settings_last (proj := Config.streamsUni) (by setting_cases) h

theorem last_bidiLocal {ss : List Setting} {c : Config} (h : Config.dflt.settings ss = .ok c) :
    c.streamDataBidiLocal = lastOf (askedStreamData false false) 1048576 ss :=
  settings_last (proj := Config.streamDataBidiLocal) (by setting_cases) h

theorem last_bidiRemote {ss : List Setting} {c : Config} (h : Config.dflt.settings ss = .ok c) :
    c.streamDataBidiRemote = lastOf (askedStreamData false true) 1048576 ss :=
  settings_last (proj := Config.streamDataBidiRemote) (by setting_cases) h

theorem last_uni {ss : List Setting} {c : Config} (h : Config.dflt.settings ss = .ok c) :
    c.streamDataUni = lastOf (askedStreamData true true) 1048576 ss :=
  settings_last (proj := Config.streamDataUni) (by setting_cases) h

theorem last_idle {ss : List Setting} {c : Config} (h : Config.dflt.settings ss = .ok c) :
    c.idleTimeout = lastOf askedIdle 30000000000 ss :=
  settings_last (proj := Config.idleTimeout) (by setting_cases) h

theorem last_datagram {ss : List Setting} {c : Config} (h : Config.dflt.settings ss = .ok c) :
    c.datagramSize = lastOf askedDatagram 65535 ss :=
  settings_last (proj := Config.datagramSize) (by setting_cases) h

theorem last_grease {ss : List Setting} {c : Config} (h : Config.dflt.settings ss = .ok c) :
    c.grease = lastOf askedGrease true ss :=
  settings_last (proj := Config.grease) (by setting_cases) h

theorem last_noMigration {ss : List Setting} {c : Config} (h : Config.dflt.settings ss = .ok c) :
    c.disableMigration = lastOf askedNoMigration false ss :=
  settings_last (proj := Config.disableMigration) (by setting_cases) h

theorem last_scone {ss : List Setting} {c : Config} (h : Config.dflt.settings ss = .ok c) :
    c.scone = lastOf askedScone false ss :=
  settings_last (proj := Config.scone) (by setting_cases) h

theorem last_resetAt {ss : List Setting} {c : Config} (h : Config.dflt.settings ss = .ok c) :
    c.resetStreamAt = lastOf askedResetAt true ss :=
  settings_last (proj := Config.resetStreamAt) (by setting_cases) h

theorem last_address {ss : List Setting} {c : Config} (h : Config.dflt.settings ss = .ok c) :
    c.addresses = lastOf askedAddress none ss :=
  settings_last (proj := Config.addresses) (by setting_cases) h

/-- What the setters ensure. -/
structure Config.Ok (c : Config) : Prop where
  streamsBidi : c.streamsBidi ≤ 1152921504606846976
  streamsUni : c.streamsUni ≤ 1152921504606846976
  bidiLocal : c.streamDataBidiLocal < 4611686018427387904
  bidiRemote : c.streamDataBidiRemote < 4611686018427387904
  uni : c.streamDataUni < 4611686018427387904
  idle : asMillis c.idleTimeout < 4611686018427387904
  addr : ∀ v4 v6, c.preferred = .address v4 v6 → AddrValid 4 v4 ∧ AddrValid 16 v6 ∧ (v4 ≠ none ∨ v6 ≠ none)

theorem addrValid_of {n : Nat} {a : Option (Bytes × Nat)} (h1 : Typed n a) (h2 : addrOk n a = true) : AddrValid n a := by
  cases a with
  | none => trivial
  | some x =>
    obtain ⟨ip, port⟩ := x
    simp only [addrOk, Bool.and_eq_true, decide_eq_true_eq] at h2
    exact ⟨h1.1, h2.1, by omega, h1.2⟩

theorem setting_ok {c c' : Config} {s : Setting} (hc : c.Ok) (ht : s.Typed) (h : c.setting s = .ok c') : c'.Ok := by
  obtain ⟨a1, a2, a3, a4, a5, a6, a7⟩ := hc
  cases s <;> unfold Config.setting at h <;> dsimp only at h
  case preferredAddress v4 v6 =>
    split at h
    · rename_i hg
      cases h
      simp only [Bool.and_eq_true, Bool.or_eq_true] at hg
      refine ⟨a1, a2, a3, a4, a5, a6, ?_⟩
      intro x y hxy
      cases hxy
      refine ⟨addrValid_of ht.1 hg.1.2, addrValid_of ht.2 hg.2, ?_⟩
      rcases hg.1.1 with h | h
      · left; intro hn; rw [hn] at h; cases h
      · right; intro hn; rw [hn] at h; cases h
    · cases h
  case disablePreferredAddress =>
    cases h
    exact ⟨a1, a2, a3, a4, a5, a6, fun _ _ hxy => by cases hxy⟩
  all_goals
    (repeat' split at h) <;> first | contradiction | (cases h; constructor <;> assumption)

theorem settings_ok {ss : List Setting} : ∀ {c c' : Config}, c.Ok → (∀ s ∈ ss, s.Typed) → c.settings ss = .ok c' → c'.Ok := by
  induction ss with
  | nil => intro c c' hc _ h; cases h; exact hc
  | cons s ss ih =>
    intro c c' hc ht h
    unfold Config.settings at h
    obtain ⟨d, hd, h⟩ := Except.bind_eq_ok.mp h
    exact ih (setting_ok hc (ht s (List.mem_cons_self ..)) hd) (fun x hx => ht x (List.mem_cons_of_mem _ hx)) h

theorem dflt_ok : Config.dflt.Ok :=
  ⟨by decide, by decide, by decide, by decide, by decide, by decide, fun _ _ h => by cases h⟩

/-- An integer as it is stored. -/
def stored (dflt v : Nat) : Option Value := if dflt = v then none else some (.int v)

def putInt (p : Params) (i : PId) (dflt v : Nat) : Params := fun j => if j = i then stored dflt v else p j

theorem setInteger_eq {p : Params} {i : PId} {m n : Nat} (h : integerDefault i = some m) :
    setInteger p i n = .ok (putInt p i m n) := by
  unfold setInteger
  rw [h]
  dsimp only
  split
  · rename_i hm
    congr 1
    funext j
    simp [putInt, Params.remove, stored, hm]
  · rename_i hm
    congr 1
    funext j
    simp [putInt, Params.set, stored, hm]

def putEmpty (b : Bool) (p : Params) (i : PId) : Params := fun j => if j = i then (if b then some .empty else p i) else p j

theorem setEmptyIf_eq {b : Bool} {p : Params} {i : PId} (h : isEmpty i = true) : setEmptyIf b p i = .ok (putEmpty b p i) := by
  unfold setEmptyIf setEmpty
  cases b with
  | false =>
    simp only [Bool.false_eq_true, if_false]
    congr 1
    funext j
    unfold putEmpty
    by_cases hj : j = i
    · rw [if_pos hj, hj]; rfl
    · rw [if_neg hj]
  | true =>
    rw [if_pos h]
    rfl

/-- The preferred address that is sent. -/
def Config.pref (c : Config) (server : Bool) (cid srt : Bytes) : Option Value :=
  match c.preferred with
  | .address v4 v6 => if server then some (.preferred v4 v6 cid srt) else none
  | _ => none

/-- The parameters that are made. -/
def made (c : Config) (server : Bool) (current : Nat) (other : List Nat) (scid cid srt : Bytes) : Params
  | .versionInformation => some (.versions current other)
  | .activeConnectionIdLimit => some (.int 8)
  | .disableMigration => if c.disableMigration then some .empty else none
  | .greaseQuicBit => if c.grease then some .empty else none
  | .scone => if c.scone then some .empty else none
  | .resetStreamAt => if c.resetStreamAt then some .empty else none
  | .maxAckDelay => some (.int 20)
  | .minAckDelay => some (.int 1000)
  | .initialMaxData => stored 0 c.maxData
  | .initialMaxStreamDataBidiLocal => stored 0 c.streamDataBidiLocal
  | .initialMaxStreamDataBidiRemote => stored 0 c.streamDataBidiRemote
  | .initialMaxStreamDataUni => stored 0 c.streamDataUni
  | .initialMaxStreamsBidi => stored 0 c.streamsBidi
  | .initialMaxStreamsUni => stored 0 c.streamsUni
  | .idleTimeout => stored 0 (asMillis c.idleTimeout)
  | .maxDatagramFrameSize => stored 0 c.datagramSize
  | .initialSourceCid => some (.bytes scid)
  | .preferredAddress => c.pref server cid srt
  | _ => none

def putPref (p : Params) (v : Option Value) : Params := fun j => if j = .preferredAddress then v else p j

theorem setPreferred_eq {c : Config} {server : Bool} {cid srt : Bytes} {p : Params} (hp : p .preferredAddress = none) :
    setPreferred c server (some (cid, srt)) p = some (putPref p (c.pref server cid srt)) := by
  have hn : p = putPref p none := by
    funext j
    unfold putPref
    by_cases hj : j = .preferredAddress
    · rw [if_pos hj, hj, hp]
    · rw [if_neg hj]
  unfold setPreferred Config.pref
  cases c.preferred with
  | disabled => exact congrArg some hn
  | default => exact congrArg some hn
  | address v4 v6 =>
    cases server with
    | false => exact congrArg some hn
    | true => rfl

theorem create_eq {c : Config} {server : Bool} {current : Nat} {other : List Nat} {scid cid srt : Bytes} :
    create c server current other scid (some (cid, srt)) = .ok (some (made c server current other scid cid srt)) := by
  unfold create
  dsimp only
  repeat first
    | rw [setInteger_eq (m := 0) rfl] | rw [setInteger_eq (m := 2) rfl] | rw [setInteger_eq (m := 25) rfl]
    | rw [setEmptyIf_eq rfl]
    | (simp only [bind, Except.bind])
  rw [setPreferred_eq rfl]
  dsimp only
  rw [setInteger_eq (m := 0) rfl]
  dsimp only
  unfold setBytes
  rw [if_pos (show isBytes .initialSourceCid = true from rfl)]
  dsimp only [pure, Except.pure]
  congr 2
  funext i
  cases i <;> simp [made, putInt, putEmpty, putPref, Params.set, stored]

theorem stored_valid {m n : Nat} {v : Value} (h : stored m n = some v) : v = .int n := by
  unfold stored at h
  split at h
  · cases h
  · cases h; rfl

theorem stored_is {p : Params} {i : PId} {n : Nat} (h : p i = stored 0 n)
    (hi : i ∈ [.idleTimeout, .initialMaxData, .initialMaxStreamDataBidiLocal, .initialMaxStreamDataBidiRemote,
        .initialMaxStreamDataUni, .initialMaxStreamsBidi, .initialMaxStreamsUni, PId.minAckDelay, .maxDatagramFrameSize]) :
    IntegerIs p i n := by
  unfold stored at h
  split at h
  · rename_i hn
    exact .inr ⟨h, .inl ⟨hi, hn.symm⟩⟩
  · exact .inl h

theorem made_valid {c : Config} {server : Bool} {current : Nat} {other : List Nat} {scid cid srt : Bytes} (hc : c.Ok)
    (hd : c.maxData < 4611686018427387904) (hg : c.datagramSize < 4611686018427387904)
    (hv : ∀ v ∈ current :: other, 0 < v ∧ v < 2 ^ 32) (ho : other.length < 1000) (hs : scid.length ≤ 20)
    (hcid : 1 ≤ cid.length ∧ cid.length ≤ 20) (hsrt : srt.length = 16) (i : PId) (v : Value)
    (h : made c server current other scid cid srt i = some v) : Valid i v ∧ v.Short := by
  have h62 : (2 : Nat) ^ 62 = 4611686018427387904 := by decide
  have h60 : (2 : Nat) ^ 60 = 1152921504606846976 := by decide
  obtain ⟨a1, a2, a3, a4, a5, a6, a7⟩ := hc
  cases i <;> unfold made at h <;> dsimp only at h
  case preferredAddress =>
    unfold Config.pref at h
    split at h
    · rename_i v4 v6 hp
      split at h
      · cases h
        obtain ⟨b1, b2, b3⟩ := a7 _ _ hp
        exact ⟨⟨b1, b2, b3, hcid.1, hcid.2, hsrt⟩, trivial⟩
      · cases h
    · cases h
  case versionInformation =>
    cases h
    refine ⟨hv, ?_⟩
    unfold Value.Short
    rw [h62]
    omega
  case initialSourceCid =>
    cases h
    refine ⟨trivial, ?_⟩
    unfold Value.Short
    rw [h62]
    omega
  case activeConnectionIdLimit =>
    cases h
    exact ⟨⟨by decide, by decide⟩, trivial⟩
  case maxAckDelay => cases h; exact ⟨(by decide : (20 : Nat) < 2 ^ 14), trivial⟩
  case minAckDelay => cases h; exact ⟨(by decide : (1000 : Nat) < 2 ^ 24), trivial⟩
  case disableMigration | greaseQuicBit | scone | resetStreamAt =>
    split at h
    · cases h; exact ⟨trivial, trivial⟩
    · cases h
  case initialMaxStreamsBidi => rw [stored_valid h]; exact ⟨by unfold Valid; rw [h60]; exact a1, trivial⟩
  case initialMaxStreamsUni => rw [stored_valid h]; exact ⟨by unfold Valid; rw [h60]; exact a2, trivial⟩
  case initialMaxStreamDataBidiLocal => rw [stored_valid h]; exact ⟨by unfold Valid; rw [h62]; exact a3, trivial⟩
  case initialMaxStreamDataBidiRemote => rw [stored_valid h]; exact ⟨by unfold Valid; rw [h62]; exact a4, trivial⟩
  case initialMaxStreamDataUni => rw [stored_valid h]; exact ⟨by unfold Valid; rw [h62]; exact a5, trivial⟩
  case idleTimeout => rw [stored_valid h]; exact ⟨by unfold Valid; rw [h62]; exact a6, trivial⟩
  case initialMaxData => rw [stored_valid h]; exact ⟨by unfold Valid; rw [h62]; exact hd, trivial⟩
  case maxDatagramFrameSize => rw [stored_valid h]; exact ⟨by unfold Valid; rw [h62]; exact hg, trivial⟩
  all_goals cases h

theorem made_role {c : Config} {server : Bool} {current : Nat} {other : List Nat} {scid cid srt : Bytes} (i : PId)
    (h : (made c server current other scid cid srt i).isSome = true) (hi : serverOnly i) :
    (if server then Role.client else Role.server) = .client := by
  cases i <;> simp only [serverOnly] at hi <;> unfold made at h <;> dsimp only at h
  case preferredAddress =>
    unfold Config.pref at h
    split at h
    · cases server with
      | true => rfl
      | false => cases h
    · cases h
  all_goals cases h

/-! ## The theorems -/

/-- What the parameters `q` say is what the application asked for with `ss`. -/
structure Says (q : Params) (ss : List Setting) : Prop where
  maxData : IntegerIs q .initialMaxData (lastOf askedMaxData 2097152 ss)
  streamsBidi : IntegerIs q .initialMaxStreamsBidi (lastOf (askedStreams false) 100 ss)
  streamsUni : IntegerIs q .initialMaxStreamsUni (lastOf (askedStreams true) 100 ss)
  bidiLocal : IntegerIs q .initialMaxStreamDataBidiLocal (lastOf (askedStreamData false false) 1048576 ss)
  bidiRemote : IntegerIs q .initialMaxStreamDataBidiRemote (lastOf (askedStreamData false true) 1048576 ss)
  uni : IntegerIs q .initialMaxStreamDataUni (lastOf (askedStreamData true true) 1048576 ss)
  idle : IntegerIs q .idleTimeout (lastOf askedIdle 30000000000 ss / 1000000)
  datagram : IntegerIs q .maxDatagramFrameSize (lastOf askedDatagram 65535 ss)
  grease : q .greaseQuicBit = some .empty ↔ lastOf askedGrease true ss = true
  noMigration : q .disableMigration = some .empty ↔ lastOf askedNoMigration false ss = true
  scone : q .scone = some .empty ↔ lastOf askedScone false ss = true
  resetAt : q .resetStreamAt = some .empty ↔ lastOf askedResetAt true ss = true

theorem empty_iff {q : Params} {i : PId} {b : Bool} (h : q i = if b then some .empty else none) :
    q i = some .empty ↔ b = true := by
  rw [h]
  cases b <;> simp

theorem made_says {ss : List Setting} {c : Config} {server : Bool} {current : Nat} {other : List Nat} {scid cid srt : Bytes}
    (h : Config.dflt.settings ss = .ok c) : Says (made c server current other scid cid srt) ss where
  maxData := last_maxData h ▸ stored_is rfl (by decide)
  streamsBidi := last_streamsBidi h ▸ stored_is rfl (by decide)
  streamsUni := last_streamsUni h ▸ stored_is rfl (by decide)
  bidiLocal := last_bidiLocal h ▸ stored_is rfl (by decide)
  bidiRemote := last_bidiRemote h ▸ stored_is rfl (by decide)
  uni := last_uni h ▸ stored_is rfl (by decide)
  idle := last_idle h ▸ stored_is rfl (by decide)
  datagram := last_datagram h ▸ stored_is rfl (by decide)
  grease := last_grease h ▸ empty_iff rfl
  noMigration := last_noMigration h ▸ empty_iff rfl
  scone := last_scone h ▸ empty_iff rfl
  resetAt := last_resetAt h ▸ empty_iff rfl

/-- Whatever settings an application makes without a panic, if the limit of the connection and the size
of datagrams are below 2^62, the parameters can be made and written, and the peer reads from them
exactly the limits that were asked for last, which are also those that the endpoint itself keeps (`p` is
what it keeps): idle timeouts in whole milliseconds.  The preferred address is told by servers only. -/
theorem C114_told_partial {ss : List Setting} {c : Config} {server : Bool} {current : Nat} {other : List Nat}
    {scid cid srt : Bytes} (h : Config.dflt.settings ss = .ok c) (ht : ∀ s ∈ ss, s.Typed)
    (hd : lastOf askedMaxData 2097152 ss < 2 ^ 62) (hg : lastOf askedDatagram 65535 ss < 2 ^ 62)
    (hv : ∀ v ∈ current :: other, 0 < v ∧ v < 2 ^ 32) (ho : other.length < 1000) (hs : scid.length ≤ 20)
    (hcid : 1 ≤ cid.length ∧ cid.length ≤ 20) (hsrt : srt.length = 16) :
    ∃ p b, create c server current other scid (some (cid, srt)) = .ok (some p) ∧
      encodeParams (fun _ => true) p = .ok b ∧
      decodeParams (if server then .client else .server) b = .ok p ∧ Says p ss ∧
      (∀ v4 v6, (∃ x y, p .preferredAddress = some (.preferred v4 v6 x y)) ↔
        server = true ∧ lastOf askedAddress none ss = some (v4, v6)) := by
  have h62 : (2 : Nat) ^ 62 = 4611686018427387904 := by decide
  rw [h62, ← last_maxData h] at hd
  rw [h62, ← last_datagram h] at hg
  obtain ⟨b, h1, h2⟩ := C36_round_trip (role := if server then .client else .server) (f := fun _ => true)
    (p := made c server current other scid cid srt)
    (made_valid (settings_ok dflt_ok ht h) hd hg hv ho hs hcid hsrt) (fun i hi _ hs => made_role i hi hs)
  refine ⟨_, b, create_eq, h1, by simpa using h2, made_says h, ?_⟩
  intro v4 v6
  rw [← last_address h]
  unfold made Config.pref Config.addresses
  cases hp : c.preferred with
  | disabled => simp
  | default => simp
  | address a4 a6 =>
    cases server with
    | false => simp
    | true => simp

/-- A preferred address that is asked for, with connection ids that are empty or not to be had: a server
fails to start, and a client does not need one. -/
theorem C114_no_cid {ss : List Setting} {c : Config} {server : Bool} {current : Nat} {other : List Nat} {scid : Bytes}
    (h : Config.dflt.settings ss = .ok c) :
    create c server current other scid none = .ok none ↔
      server = true ∧ lastOf askedAddress none ss ≠ none := by
  rw [← last_address h]
  unfold create Config.addresses
  dsimp only
  repeat first
    | rw [setInteger_eq (m := 0) rfl] | rw [setInteger_eq (m := 2) rfl] | rw [setInteger_eq (m := 25) rfl]
    | rw [setEmptyIf_eq rfl]
    | (simp only [bind, Except.bind])
  unfold setPreferred
  cases c.preferred with
  | disabled | default =>
    dsimp only
    rw [setInteger_eq (m := 0) rfl]
    dsimp only
    unfold setBytes
    rw [if_pos (show isBytes .initialSourceCid = true from rfl)]
    simp [pure, Except.pure]
  | address v4 v6 =>
    cases server with
    | true => simp [pure, Except.pure]
    | false =>
      simp only [Bool.false_eq_true, if_false]
      rw [setInteger_eq (m := 0) rfl]
      dsimp only
      unfold setBytes
      rw [if_pos (show isBytes .initialSourceCid = true from rfl)]
      simp [pure, Except.pure]

/-- A limit of the connection that no peer could be told is accepted by the setter and panics only when
the parameters are written, that is when the connection starts. -/
theorem C114_limit_panics : ∃ c p, Config.dflt.settings [.maxData (2 ^ 62)] = .ok c ∧
    create c false 1 [1] [7] (some ([1], List.replicate 16 2)) = .ok (some p) ∧
    encodeParams (fun _ => true) p = .error .panic := by
  refine ⟨{ Config.dflt with maxData := 2 ^ 62 }, _, rfl, create_eq, ?_⟩
  decide +kernel

/-- The same is so for the size of datagrams. -/
theorem C114_datagram_size_panics : ∃ c p, Config.dflt.settings [.datagramSize (2 ^ 62)] = .ok c ∧
    create c false 1 [1] [7] (some ([1], List.replicate 16 2)) = .ok (some p) ∧
    encodeParams (fun _ => true) p = .error .panic := by
  refine ⟨{ Config.dflt with datagramSize := 2 ^ 62 }, _, rfl, create_eq, ?_⟩
  decide +kernel

/-- The setters for streams and for the idle timeout reject what the peer could not be told. -/
theorem C114_rejected {c : Config} {v : Nat} :
    (2 ^ 60 < v → ∀ uni, c.setting (.maxStreams uni v) = .error .panic) ∧
    (2 ^ 62 ≤ v → ∀ uni remote, c.setting (.maxStreamData uni remote v) = .error .panic) ∧
    (2 ^ 62 ≤ v / 1000000 → c.setting (.idleTimeout v) = .error .panic) := by
  have h62 : (2 : Nat) ^ 62 = 4611686018427387904 := by decide
  have h60 : (2 : Nat) ^ 60 = 1152921504606846976 := by decide
  rw [h62, h60]
  refine ⟨fun h uni => ?_, fun h uni remote => ?_, fun h => ?_⟩
  · unfold Config.setting; dsimp only; rw [if_neg (by omega)]
  · unfold Config.setting; dsimp only; rw [if_neg (by omega)]
  · unfold Config.setting asMillis; dsimp only; rw [if_neg (by omega)]

/-- An idle timeout below a millisecond is kept by the endpoint, but what the peer reads is that there is
none. -/
theorem C114_short_timeout_not_told {ss : List Setting} {c : Config} {server : Bool} {current : Nat} {other : List Nat}
    {scid cid srt : Bytes} (h : Config.dflt.settings ss = .ok c) (hi : lastOf askedIdle 30000000000 ss < 1000000) :
    ∃ p, create c server current other scid (some (cid, srt)) = .ok (some p) ∧ IntegerIs p .idleTimeout 0 ∧
      c.idleTimeout = lastOf askedIdle 30000000000 ss := by
  refine ⟨_, create_eq, ?_, last_idle h⟩
  have := (made_says (server := server) (current := current) (other := other) (scid := scid) (cid := cid) (srt := srt) h).idle
  rw [Nat.div_eq_of_lt hi] at this
  exact this

/-! ## Examples -/

/-- A server with a preferred address and other limits than the default. -/
def exSettings : List Setting :=
  [.maxData 5000, .maxStreamData false true 77, .maxStreams true 3, .idleTimeout 1500000,
    .preferredAddress (some ([192, 0, 2, 1], 443)) none, .maxData 6000, .grease false]

example : ∃ c, Config.dflt.settings exSettings = .ok c := ⟨_, rfl⟩

example : ∀ s ∈ exSettings, s.Typed := by
  intro s hs
  simp only [exSettings, List.mem_cons, List.not_mem_nil, or_false] at hs
  rcases hs with h | h | h | h | h | h | h <;> subst h <;> simp [Setting.Typed, Typed]

example : lastOf askedMaxData 2097152 exSettings = 6000 ∧ lastOf askedDatagram 65535 exSettings = 65535 ∧
    lastOf askedIdle 30000000000 exSettings / 1000000 = 1 ∧
    lastOf askedAddress none exSettings = some (some ([192, 0, 2, 1], 443), none) := by decide

example : lastOf askedIdle 30000000000 [.idleTimeout 999999] < 1000000 := by decide

end Neqo.Tp
