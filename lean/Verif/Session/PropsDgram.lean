import Verif.Session.Dgram

/-!
# C101: HTTP datagrams arrive as they were sent, at the session they were sent on
-/
namespace Neqo.Sess
open Neqo.Codec Neqo.H3

/-! ## QUIC datagrams -/

theorem prefix_decode (k : SKind) : ∃ p, k.dgramPrefix = some p ∧
    ∀ buf, k.contextId (p ++ buf) = some buf := by
  cases k with
  | webTransport => exact ⟨[], rfl, fun _ => rfl⟩
  | connectUdp =>
    obtain ⟨e, he, hd⟩ := encodeVarint_decode (v := 0) (by decide)
    exact ⟨e, he, fun buf => by simp [SKind.contextId, hd]⟩

theorem find_session {ss : List Session} {s : Session} (hu : (ss.map (·.id)).Nodup)
    (hm : s ∈ ss) (hg : s.gone = false) {i : Nat} (hi : s.id = i) :
    ss.find? (fun t => !t.gone && t.id = i) = some s := by
  induction ss with
  | nil => cases hm
  | cons t ss ih =>
    rw [List.map_cons, List.nodup_cons] at hu
    rcases List.mem_cons.mp hm with rfl | hm
    · rw [List.find?_cons_of_pos]; simp [hg, hi]
    · have hne : t.id ≠ i := by
        intro h
        exact hu.1 (List.mem_map.mpr ⟨s, hm, by rw [hi, h]⟩)
      rw [List.find?_cons_of_neg (by simp [hne])]
      exact ih hu.2 hm

/-- A datagram the application sends on a session, carried in a QUIC datagram that
arrives while the peer's side of that session is active, is reported there once, as
it was sent, and nowhere else. -/
theorem C101_round_trip {ss : List Session} {s s' : Session} {remote space : Nat} {buf d : Bytes}
    (hsend : s.sendDatagram remote space buf = .ok (.quic d))
    (hid : s.id % 4 = 0) (hlt : s.id < 2 ^ 62)
    (hu : (ss.map (·.id)).Nodup) (hmem : s' ∈ ss) (hpeer : s'.id = s.id) (hkind : s'.kind = s.kind)
    (hact : s'.st = .active) (hgone : s'.gone = false) :
    handleDatagram ss d = [(s.id, .datagram buf)] := by
  obtain ⟨e, he, hdec⟩ := encodeVarint_decode (v := s.id / 4) (by omega)
  obtain ⟨p, hp, hctx⟩ := prefix_decode s.kind
  unfold Session.sendDatagram at hsend
  split at hsend
  · cases hsend
  · split at hsend
    · unfold capsuleDatagram at hsend
      rw [hp] at hsend
      dsimp only at hsend
      split at hsend
      · cases hsend
      · split at hsend <;> cases hsend
    · have hq : s.quicDatagram buf = some (e ++ p ++ buf) := by
        simp [Session.quicDatagram, he, hp]
      rw [hq] at hsend
      dsimp only at hsend
      split at hsend
      · cases hsend
      · cases hsend
        unfold handleDatagram
        rw [List.append_assoc, hdec]
        dsimp only
        rw [show s.id / 4 * 4 = s.id from by omega, find_session hu hmem hgone hpeer]
        simp [Session.datagram, hact, hkind, hctx, hpeer]

/-- Whatever QUIC datagram arrives: at most one report, on the session whose number
it starts with, only while that session is active, and the payload is what follows
(for CONNECT-UDP, after context 0). -/
theorem C101_only_there (ss : List Session) (d : Bytes) :
    handleDatagram ss d = [] ∨
    ∃ s ∈ ss, s.st = .active ∧ s.gone = false ∧ ∃ rest payload,
      decodeVarint d = some (s.id / 4, rest) ∧ s.id % 4 = 0 ∧
      handleDatagram ss d = [(s.id, .datagram payload)] ∧
      (s.kind = .webTransport → payload = rest) ∧
      (s.kind = .connectUdp → decodeVarint rest = some (0, payload)) := by
  unfold handleDatagram
  cases hd : decodeVarint d with
  | none => exact .inl rfl
  | some x =>
    obtain ⟨v, rest⟩ := x
    dsimp only
    cases hf : ss.find? (fun s => !s.gone && s.id = v * 4) with
    | none => exact .inl rfl
    | some s =>
      have hm := List.mem_of_find?_eq_some hf
      have hp := List.find?_some hf
      simp only [Bool.and_eq_true, Bool.not_eq_true', decide_eq_true_eq] at hp
      dsimp only
      by_cases hst : s.st = .active
      · have hv : v = s.id / 4 := by omega
        have h4 : s.id % 4 = 0 := by omega
        cases hk : s.kind with
        | webTransport =>
          exact .inr ⟨s, hm, hst, hp.1, rest, rest, by rw [hv], h4,
            by simp [Session.datagram, hst, hk, SKind.contextId],
            fun _ => rfl, fun h => by rw [hk] at h; cases h⟩
        | connectUdp =>
          cases hr : decodeVarint rest with
          | none => exact .inl (by simp [Session.datagram, hst, hk, SKind.contextId, hr])
          | some y =>
            obtain ⟨c, p⟩ := y
            by_cases hc : c = 0
            · subst hc
              exact .inr ⟨s, hm, hst, hp.1, rest, p, by rw [hv], h4,
                by simp [Session.datagram, hst, hk, SKind.contextId, hr],
                (fun h => by rw [hk] at h; cases h), fun _ => hr⟩
            · exact .inl (by simp [Session.datagram, hst, hk, SKind.contextId, hr, hc])
      · exact .inl (by simp [Session.datagram, hst])

/-- Something an application sent on a session, and the QUIC datagram for it. -/
structure Spec.Mail where
  from' : Session
  buf : Bytes
  wire : Bytes

/-- It was sent. -/
def Spec.Mail.Sent (m : Spec.Mail) : Prop :=
  (∃ remote space, m.from'.sendDatagram remote space m.buf = .ok (.quic m.wire)) ∧
    m.from'.id % 4 = 0 ∧ m.from'.id < 2 ^ 62

/-- Of any datagrams that arrive, in any order, with losses and repetitions, the
application gets exactly those for active sessions, each on its session. -/
theorem C101_any_delivery {ss : List Session} (hu : (ss.map (·.id)).Nodup) (ms : List Spec.Mail)
    (hsent : ∀ m ∈ ms, m.Sent)
    (hkinds : ∀ m ∈ ms, ∀ s ∈ ss, s.id = m.from'.id → s.kind = m.from'.kind) :
    (ms.map (·.wire)).flatMap (handleDatagram ss) =
      (ms.filter fun m => ss.any fun s => s.id = m.from'.id && s.st = .active && !s.gone).map
        fun m => (m.from'.id, .datagram m.buf) := by
  induction ms with
  | nil => rfl
  | cons m ms ih =>
    have ih := ih (fun m hm => hsent m (by simp [hm])) (fun m hm => hkinds m (by simp [hm]))
    obtain ⟨⟨remote, space, h1⟩, h2, h3⟩ := hsent m (by simp)
    rw [List.map_cons, List.flatMap_cons, ih]
    by_cases ha : (ss.any fun s => s.id = m.from'.id && s.st = .active && !s.gone) = true
    · obtain ⟨s, hs, hp⟩ := List.any_eq_true.mp ha
      simp only [Bool.and_eq_true, decide_eq_true_eq, Bool.not_eq_true'] at hp
      rw [List.filter_cons, if_pos ha,
        C101_round_trip h1 h2 h3 hu hs hp.1.1 (hkinds m (by simp) s hs hp.1.1) hp.1.2 hp.2]
      rfl
    · rw [List.filter_cons, if_neg ha]
      have : handleDatagram ss m.wire = [] := by
        rcases C101_only_there ss m.wire with h | ⟨s, hs, hst, hg, rest, payload, hd, h4, h5, _⟩
        · exact h
        · exfalso
          apply ha
          refine List.any_eq_true.mpr ⟨s, hs, ?_⟩
          have hid : s.id = m.from'.id := by
            obtain ⟨e, he, hdec⟩ := encodeVarint_decode (v := m.from'.id / 4) (by omega)
            obtain ⟨p, hp, _⟩ := prefix_decode m.from'.kind
            have hw : ∃ r, m.wire = e ++ r := by
              unfold Session.sendDatagram at h1
              split at h1
              · cases h1
              · split at h1
                · unfold capsuleDatagram at h1
                  rw [hp] at h1
                  dsimp only at h1
                  split at h1
                  · cases h1
                  · split at h1 <;> cases h1
                · have hq : m.from'.quicDatagram m.buf = some (e ++ p ++ m.buf) := by
                    simp [Session.quicDatagram, he, hp]
                  rw [hq] at h1
                  dsimp only at h1
                  split at h1
                  · cases h1
                  · injection h1 with h1
                    injection h1 with h1
                    exact ⟨p ++ m.buf, by rw [← h1, List.append_assoc]⟩
            obtain ⟨r, hr⟩ := hw
            rw [hr, hdec] at hd
            injection hd with hd
            injection hd with hd _
            omega
          simp [hid, hst, hg]
      rw [this]
      rfl

/-- A datagram is only accepted on an active session; on any other the application
is told that there is no such session. -/
theorem C101_refused (ss : List Session) (id remote space : Nat) (buf : Bytes) {x : Sent}
    (h : sendDatagram ss id remote space buf = .ok x) :
    ∃ s ∈ ss, s.id = id ∧ s.st = .active ∧ s.gone = false := by
  unfold sendDatagram at h
  cases hf : ss.find? (fun s => !s.gone && s.id = id) with
  | none => rw [hf] at h; cases h
  | some s =>
    rw [hf] at h
    have hp := List.find?_some hf
    simp only [Bool.and_eq_true, Bool.not_eq_true', decide_eq_true_eq] at hp
    dsimp only at h
    split at h
    · cases h
    · rename_i hst
      exact ⟨s, List.mem_of_find?_eq_some hf, hp.2, by simpa using hst, hp.1⟩

/-- A WebTransport datagram no longer than the reported maximum is not refused, as
long as the transport has room for the session's number at all. -/
theorem C101_max_size {s : Session} {transportMax remote space m : Nat} {buf : Bytes}
    (hk : s.kind = .webTransport) (hst : s.st = .active) (hlt : s.id < 2 ^ 62)
    (hmax : wtMaxDatagram s.id transportMax = some m) (htr : transportMax ≤ remote)
    (hlen : buf.length ≤ m) (hroom : 8 ≤ transportMax) :
    ∃ d, s.sendDatagram remote space buf = .ok (.quic d) ∧ d.length ≤ transportMax := by
  obtain ⟨e, he, _⟩ := encodeVarint_decode (v := s.id / 4) (by omega)
  have hel := encodeVarint_length (s.id / 4)
  rw [he] at hel
  have hsh : s.id >>> 2 = s.id / 4 := by rw [Nat.shiftRight_eq_div_pow]
  unfold wtMaxDatagram at hmax
  rw [hsh, ← hel] at hmax
  simp only [Option.map_some, Option.some.injEq] at hmax
  have h8 := varint_length he
  have hq : s.quicDatagram buf = some (e ++ buf) := by
    simp [Session.quicDatagram, he, hk, SKind.dgramPrefix]
  have hl : (e ++ buf).length ≤ transportMax := by rw [List.length_append]; omega
  refine ⟨e ++ buf, ?_, hl⟩
  unfold Session.sendDatagram
  rw [if_neg (by simp [hst]), if_neg (by simp [hk, SKind.capsules]), hq]
  dsimp only
  rw [if_neg (by omega)]

/-! ## Capsules -/

/-- The peer's side of a CONNECT-UDP session that has read nothing yet. -/
def Spec.Fresh (s : Session) : Prop :=
  s.kind = .connectUdp ∧ s.st = .active ∧ s.gone = false ∧ s.src.avail = [] ∧
    s.reader = Reader.new

theorem fresh_run {s : Session} (h : Spec.Fresh s) (utf8 : Bytes → Bool) (cs : List Bytes)
    (fin : Bool) (hne : cs ≠ []) :
    (s.run utf8 (pieces cs fin)).1 =
      Spec.datagrams (H3.Spec.read H3.Spec.capsule cs.flatten fin).1 ++
        Spec.atEnd (H3.Spec.read H3.Spec.capsule cs.flatten fin).2 := by
  obtain ⟨h1, h2, h3, h4, h5⟩ := h
  rw [run_pieces utf8 cs s fin hne h1 h2 h3 h4 (by rw [h5]; exact vr_new), h5,
    from_reset Reader.new rfl]

theorem capsule_of_send {s : Session} {space : Nat} {buf e : Bytes}
    (h : s.sendDatagram 0 space buf = .ok (.capsule e)) :
    capsuleEncode (0 :: buf) = some e := by
  unfold Session.sendDatagram at h
  split at h
  · cases h
  · split at h
    · rename_i hc
      have hk : s.kind = .connectUdp := by
        cases hk : s.kind with
        | connectUdp => rfl
        | webTransport => rw [hk] at hc; exact absurd hc.2 (by decide)
      rw [hk] at h
      have hp : SKind.connectUdp.dgramPrefix = some [0] := by decide
      unfold capsuleDatagram at h
      rw [hp] at h
      dsimp only [List.cons_append, List.nil_append] at h
      split at h
      · cases h
      · cases hc : capsuleEncode (0 :: buf) with
        | none => rw [hc] at h; cases h
        | some x =>
          rw [hc] at h
          injection h with h
          injection h with h
          rw [h]
    · split at h
      · cases h
      · split at h <;> cases h

/-- Datagrams sent as capsules arrive all, in order and as they were sent, however
the control stream is cut; `sent` pairs each with the bytes written for it. -/
theorem C101_capsules_partial {s s' : Session} (hs' : Spec.Fresh s') (utf8 : Bytes → Bool)
    (sent : List (Bytes × Bytes))
    (hsent : ∀ x ∈ sent, ∃ space, s.sendDatagram 0 space x.1 = .ok (.capsule x.2))
    (hlen : ∀ x ∈ sent, x.1.length ≤ 65534) (cs : List Bytes) (fin : Bool) (hne : cs ≠ [])
    (hcs : cs.flatten = (sent.map (·.2)).flatten) :
    (s'.run utf8 (pieces cs fin)).1 =
      sent.map (fun x => .datagram x.1) ++ (if fin then [.ended (.clean 0 [])] else []) := by
  rw [fresh_run hs' utf8 cs fin hne, hcs]
  have key : ∀ sent : List (Bytes × Bytes),
      (∀ x ∈ sent, ∃ space, s.sendDatagram 0 space x.1 = .ok (.capsule x.2)) →
      (∀ x ∈ sent, x.1.length ≤ 65534) →
      H3.Spec.read H3.Spec.capsule (sent.map (·.2)).flatten fin =
        (sent.map (fun x => .frame (0 :: x.1)), if fin then .finished else .more) := by
    intro sent
    induction sent with
    | nil => intro _ _; rfl
    | cons x sent ih =>
      intro h1 h2
      have ih := ih (fun y hy => h1 y (by simp [hy])) (fun y hy => h2 y (by simp [hy]))
      obtain ⟨space, hx⟩ := h1 x (by simp)
      have hl := h2 x (by simp)
      obtain ⟨a, b, ha, hb, hab⟩ := read_whole (kind := H3.Spec.capsule) (t := 0)
        (payload := 0 :: x.1) (f := 0 :: x.1) (by decide) rfl (by simp; omega) (by simp; omega) rfl
      have he := capsule_of_send hx
      simp only [capsuleEncode, ha, hb, Option.pure_def, Option.bind_eq_bind, Option.bind_some,
        Option.some.injEq] at he
      rw [List.map_cons, List.flatten_cons, ← he, hab, ih]
      rfl
  rw [key sent hsent hlen]
  have hd : Spec.datagrams (sent.map fun x => Item.frame (0 :: x.1)) =
      sent.map fun x => Ev.datagram x.1 := by
    clear hsent hlen hcs
    induction sent with
    | nil => rfl
    | cons x sent ih =>
      have h0 : decodeVarint (0 :: x.1) = some (0, x.1) := by
        obtain ⟨e, he, hdec⟩ := encodeVarint_decode (v := 0) (by decide)
        have : e = [0] := by
          have h : encodeVarint 0 = some [0] := by decide
          rw [h] at he
          exact (Option.some.inj he).symm
        rw [this] at hdec
        exact hdec x.1
      simp [Spec.datagrams, Spec.inCapsule, h0, ih]
  cases fin with
  | false => simp [hd, Spec.atEnd]
  | true => simp [hd, Spec.atEnd]

/-- The full statement would hold for every datagram that is accepted.  It does
not: the capsule path has no limit, but the reader has.  A longer datagram is
accepted and written, and the peer closes the whole session because of it. -/
theorem C101_long_capsule_ends_session {s s' : Session} (hs' : Spec.Fresh s')
    (utf8 : Bytes → Bool) (hk : s.kind = .connectUdp) (hst : s.st = .active) (buf : Bytes)
    (hlong : 65534 < buf.length) (hlt : buf.length < 2 ^ 62 - 1) {space : Nat}
    (hspace : buf.length < space) :
    ∃ e, s.sendDatagram 0 space buf = .ok (.capsule e) ∧
      ∀ (cs : List Bytes) fin, cs ≠ [] → cs.flatten = e →
        (s'.run utf8 (pieces cs fin)).1 = [.ended (.error 0x101)] := by
  obtain ⟨a, ha, hda⟩ := encodeVarint_decode (v := 0) (by decide)
  obtain ⟨l, hl, hdl⟩ := encodeVvec_ok (v := 0 :: buf) (by simp; omega)
  have hp : SKind.connectUdp.dgramPrefix = some [0] := by decide
  refine ⟨a ++ (l ++ (0 :: buf)), ?_, fun cs fin hne hcs => ?_⟩
  · unfold Session.sendDatagram capsuleDatagram
    rw [if_neg (by simp [hst]), if_pos ⟨rfl, by rw [hk]; rfl⟩, hk, hp]
    dsimp only [List.cons_append, List.nil_append]
    rw [if_neg (by simp; omega)]
    simp [capsuleEncode, ha, hl]
  · rw [fresh_run hs' utf8 cs fin hne, hcs,
      read_header (kind := H3.Spec.capsule) hda hdl (by intro h; cases h)]
    have : afterLen H3.Spec.capsule (fun r => H3.Spec.read H3.Spec.capsule r fin) 0
        (0 :: buf).length (0 :: buf) fin = ([], .failed .httpExcessiveLoad) := by
      show (if 65535 < (0 :: buf).length then _ else _) = _
      rw [if_pos (by simp; omega)]
    rw [this]
    rfl

/-- Capsules are dropped when the control stream has no room for the datagram, and
only then. -/
theorem C101_dropped_iff {s : Session} {space : Nat} {buf : Bytes} (hst : s.st = .active)
    (hk : s.kind = .connectUdp) (hlt : buf.length < 2 ^ 62 - 1) :
    s.sendDatagram 0 space buf = .ok .dropped ↔ space ≤ buf.length := by
  obtain ⟨a, ha, hda⟩ := encodeVarint_decode (v := 0) (by decide)
  obtain ⟨l, hl, hdl⟩ := encodeVvec_ok (v := 0 :: buf) (by simp; omega)
  have hp : SKind.connectUdp.dgramPrefix = some [0] := by decide
  unfold Session.sendDatagram capsuleDatagram
  rw [if_neg (by simp [hst]), if_pos ⟨rfl, by rw [hk]; rfl⟩, hk, hp]
  dsimp only [List.cons_append, List.nil_append]
  by_cases h : space < (0 :: buf).length
  · rw [if_pos h]
    simp only [List.length_cons] at h
    exact ⟨fun _ => by omega, fun _ => rfl⟩
  · rw [if_neg h]
    simp only [List.length_cons] at h
    simp only [capsuleEncode, ha, hl, Option.pure_def, Option.bind_eq_bind, Option.bind_some]
    exact ⟨(fun h => by cases h), fun _ => by omega⟩

/-! ## Examples -/

def exWt : Session := { Session.accepted 256 .webTransport with reader := Reader.new }
def exUdp : Session := Session.accepted 8 .connectUdp

example : exWt.sendDatagram 1200 0 [1, 2, 3] = .ok (.quic [0x40, 0x40, 1, 2, 3]) ∧
    exUdp.sendDatagram 1200 0 [1, 2, 3] = .ok (.quic [2, 0, 1, 2, 3]) ∧
    exUdp.sendDatagram 0 9 [1, 2, 3] = .ok (.capsule [0, 4, 0, 1, 2, 3]) ∧
    exWt.sendDatagram 0 9 [1, 2, 3] = .error .tooMuchData := by decide +kernel

example : handleDatagram [exUdp, exWt] [0x40, 0x40, 1, 2, 3] = [(256, .datagram [1, 2, 3])] ∧
    handleDatagram [exUdp, exWt] [2, 0, 1, 2, 3] = [(8, .datagram [1, 2, 3])] ∧
    handleDatagram [exUdp, exWt] [2, 1, 1, 2, 3] = [] ∧
    handleDatagram [exUdp, exWt] [3, 0, 1] = [] := by decide +kernel

example : Spec.Fresh exUdp := ⟨rfl, rfl, rfl, rfl, rfl⟩

example : (exUdp.run (fun _ => true) (pieces [[0, 4, 0, 1], [2, 3, 0], [2, 0, 7]] true)).1 =
    [.datagram [1, 2, 3], .datagram [7], .ended (.clean 0 [])] := by decide +kernel

example : wtMaxDatagram 256 1200 = some 1198 := by decide

example : Spec.Mail.Sent ⟨exWt, [1, 2, 3], [0x40, 0x40, 1, 2, 3]⟩ :=
  ⟨⟨1200, 0, by decide +kernel⟩, rfl, by decide⟩

end Neqo.Sess
