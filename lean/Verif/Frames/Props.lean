import Verif.Frames.Decode

/-!
# Frames: C35, C60 and C61

The bytes of frames are described in `Verif.Frames.Spec`.
-/
namespace Neqo.Frm
open Neqo.Codec

/-! ## C35: frames round trip -/

/-- A frame is read from `b`, leaving `r`, exactly if `b` is a form of the frame followed by `r`, its
values are valid and `r` may follow it. -/
theorem C35_decode {b r : Bytes} {f : Frame} :
    decode b = .ok (f, r) ↔ f.Valid ∧ f.Before r ∧ ∃ w, Wire f w ∧ b = w ++ r := decode_ok

/-- A STREAM frame with data, an offset and a length, and a PING after it. -/
example : decode [0x0e, 4, 0x40, 10, 2, 7, 8, 1] = .ok (.stream 4 10 [7, 8] false false, [1]) := by decide +kernel

/-- Every form of a valid frame reads back as that frame, consuming exactly its bytes. -/
theorem C35_round_trip {f : Frame} {w r : Bytes} (hw : Wire f w) (hv : f.Valid) (hb : f.Before r) :
    decode (w ++ r) = .ok (f, r) := decode_ok.mpr ⟨hv, hb, w, hw, rfl⟩

/-- No bytes are forms of two frames, and no form of a frame continues that of another: what follows
may differ only for frames that extend to the end of the packet. -/
theorem C35_unambiguous {f g : Frame} {v w r s : Bytes} (hv : Wire f v) (hw : Wire g w) (hf : f.Valid)
    (hg : g.Valid) (hr : f.Before r) (hs : g.Before s) (h : v ++ r = w ++ s) : f = g ∧ v = w ∧ r = s := by
  have h1 := C35_round_trip hv hf hr
  have h2 := C35_round_trip hw hg hs
  rw [h] at h1
  have h3 := Except.ok.inj (h1.symm.trans h2)
  cases h3
  exact ⟨rfl, List.append_cancel_right h, rfl⟩

/-- The frames of a packet are read exactly if the packet consists of valid frames, at least one, that
are allowed there. -/
theorem C35_packet {pt : PType} {b : Bytes} {fs : List Frame} :
    decodePacket pt b = .ok fs ↔ fs ≠ [] ∧ Frames fs b ∧ ∀ f ∈ fs, f.isAllowed pt = true := decodePacket_ok

example : decodePacket .short [1, 0, 0, 0x10, 5, 0x08, 4, 9, 9] =
    .ok [.ping, .padding 2, .maxData 5, .stream 4 0 [9, 9] false true] := by decide +kernel

/-- Padding beyond 65535 bytes is refused, although it is a run of valid frames. -/
theorem C35_long_padding_refused {b : Bytes} {n : Nat} (hn : 65536 ≤ n) :
    ∃ e, decode (List.replicate n 0 ++ b) = .error e := by
  cases h : decode (List.replicate n 0 ++ b) with
  | error e => exact ⟨e, rfl⟩
  | ok x =>
    obtain ⟨f, r⟩ := x
    exfalso
    obtain ⟨hv, hb, w, ⟨l, hl, t, x, ht, hx, rfl⟩, hw⟩ := decode_ok.mp h
    -- The type is zero: the frame is padding.
    have h0 : l.1 = 0 := by
      have h1 := dv_enc ht.1 (x ++ r)
      rw [← List.append_assoc, ← hw] at h1
      obtain ⟨m, rfl⟩ : ∃ m, n = m + 1 := ⟨n - 1, by omega⟩
      have h2 : dv (List.replicate (m + 1) 0 ++ b) = .ok (0, List.replicate m 0 ++ b) :=
        dv_enc (e := [0]) ⟨0, by decide, rfl, by decide, rfl⟩ _
      exact (Prod.mk.inj (Except.ok.inj (h1.symm.trans h2))).1
    have hp : ∃ k, f = .padding k ∧ l = f.layout := by
      rcases hl with rfl | hl
      · cases f
        case padding k => exact ⟨k, rfl, rfl⟩
        case ack la ad fa rs e => cases e <;> simp [Frame.layout] at h0
        case maxStreams u m => cases u <;> simp [Frame.layout] at h0
        case streamsBlocked u m => cases u <;> simp [Frame.layout] at h0
        case connectionClose a c t r => cases a <;> simp [Frame.layout] at h0
        case datagram d fill => cases fill <;> simp [Frame.layout] at h0
        all_goals simp [Frame.layout] at h0
      · unfold Frame.layoutNoOffset at hl
        split at hl
        · cases hl; simp at h0
        · cases hl
    obtain ⟨k, rfl, rfl⟩ := hp
    have hx' : x = List.replicate (k - 1) 0 := fields_raw.mp hx
    have hk : k < 65536 := hv.2
    have ht1 : t.length = 1 := ht.len
    have hlen : (t ++ x).length < n := by
      rw [hx', List.length_append, List.length_replicate]; omega
    have hr : r = List.replicate (n - (t ++ x).length) 0 ++ b := by
      have := congrArg (List.drop (t ++ x).length) hw
      rw [List.drop_left, List.drop_append_of_le_length (by rw [List.length_replicate]; omega), List.drop_replicate] at this
      exact this.symm
    obtain ⟨m, hm⟩ : ∃ m, n - (t ++ x).length = m + 1 := ⟨n - (t ++ x).length - 1, by omega⟩
    rw [hm, List.replicate_succ, List.cons_append] at hr
    exact hb 0 (List.replicate m 0 ++ b) hr rfl

/-! ## C60: frames that are written -/

/-- RESET_STREAM, or RESET_STREAM_AT if some of the stream is still to be delivered. -/
theorem C60_reset {rem id err final reliable : Nat} (h1 : id < 2 ^ 62) (h2 : err < 2 ^ 62) (h3 : final < 2 ^ 62)
    (h4 : reliable ≤ final) :
    Writes rem (writeReset rem id err final reliable)
      (if reliable = 0 then .resetStream id err final else .resetStreamAt id err final reliable) := by
  unfold writeReset
  by_cases h : reliable = 0
  · rw [if_pos h, if_pos h]
    exact varFrame_ok (t := .resetStream) rfl rfl trivial (by
      intro v hv; simp only [List.mem_cons, List.not_mem_nil, or_false] at hv
      rcases hv with rfl | rfl | rfl <;> assumption)
  · rw [if_neg h, if_neg h]
    exact varFrame_ok (t := .resetStreamAt) rfl rfl h4 (by
      intro v hv; simp only [List.mem_cons, List.not_mem_nil, or_false] at hv
      rcases hv with rfl | rfl | rfl | rfl <;> omega)

example : writeReset 20 4 300 1000 0 = .ok (some [4, 4, 0x41, 0x2c, 0x43, 0xe8]) ∧ writeReset 5 4 300 1000 0 = .ok none := by
  decide +kernel

theorem C60_stop_sending {rem id err : Nat} (h1 : id < 2 ^ 62) (h2 : err < 2 ^ 62) :
    Writes rem (writeStopSending rem id err) (.stopSending id err) :=
  varFrame_ok (t := .stopSending) rfl rfl trivial (by
    intro v hv; simp only [List.mem_cons, List.not_mem_nil, or_false] at hv
    rcases hv with rfl | rfl <;> assumption)

theorem C60_max_data {rem m : Nat} (h : m < 2 ^ 62) : Writes rem (writeMaxData rem m) (.maxData m) :=
  varFrame_ok (t := .maxData) rfl rfl trivial (by intro v hv; rw [List.mem_singleton.mp hv]; exact h)

theorem C60_max_stream_data {rem id m : Nat} (h1 : id < 2 ^ 62) (h2 : m < 2 ^ 62) :
    Writes rem (writeMaxStreamData rem id m) (.maxStreamData id m) :=
  varFrame_ok (t := .maxStreamData) rfl rfl trivial (by
    intro v hv; simp only [List.mem_cons, List.not_mem_nil, or_false] at hv
    rcases hv with rfl | rfl <;> assumption)

/-- MAX_STREAMS, within the limit on the number of streams. -/
theorem C60_max_streams {rem m : Nat} {uni : Bool} (h : m ≤ 2 ^ 60) :
    Writes rem (writeMaxStreams rem uni m) (.maxStreams uni m) :=
  varFrame_ok (t := .maxStreams uni) (by cases uni <;> rfl) rfl h (by
    intro v hv; rw [List.mem_singleton.mp hv]; omega)

theorem C60_data_blocked {rem l : Nat} (h : l < 2 ^ 62) : Writes rem (writeDataBlocked rem l) (.dataBlocked l) :=
  varFrame_ok (t := .dataBlocked) rfl rfl trivial (by intro v hv; rw [List.mem_singleton.mp hv]; exact h)

theorem C60_stream_data_blocked {rem id l : Nat} (h1 : id < 2 ^ 62) (h2 : l < 2 ^ 62) :
    Writes rem (writeStreamDataBlocked rem id l) (.streamDataBlocked id l) :=
  varFrame_ok (t := .streamDataBlocked) rfl rfl trivial (by
    intro v hv; simp only [List.mem_cons, List.not_mem_nil, or_false] at hv
    rcases hv with rfl | rfl <;> assumption)

theorem C60_streams_blocked {rem l : Nat} {uni : Bool} (h : l ≤ 2 ^ 60) :
    Writes rem (writeStreamsBlocked rem uni l) (.streamsBlocked uni l) :=
  varFrame_ok (t := .streamsBlocked uni) (by cases uni <;> rfl) rfl h (by
    intro v hv; rw [List.mem_singleton.mp hv]; omega)

theorem C60_ack_frequency {rem seq tolerance delay : Nat} (h1 : seq < 2 ^ 62) (h2 : 0 < tolerance)
    (h3 : tolerance < 2 ^ 62) (h4 : delay < 2 ^ 62) :
    Writes rem (writeAckFrequency rem seq tolerance delay) (.ackFrequency seq tolerance delay false) :=
  ackFrequency_ok h1 h2 h3 h4

example : writeAckFrequency 9 1 2 300 = .ok (some [0x40, 0xaf, 1, 2, 0x41, 0x2c, 0]) := by decide +kernel

theorem C60_handshake_done {rem : Nat} : Writes rem (writeHandshakeDone rem) .handshakeDone := handshakeDone_ok

theorem C60_retire_connection_id {rem seq : Nat} (h : seq < 2 ^ 62) :
    Writes rem (writeRetire rem seq) (.retireConnectionId seq) := retire_ok h

theorem C60_path_challenge {rem : Nat} {dat : Bytes} (h : dat.length = 8) :
    Writes rem (writePath rem .pathChallenge dat) (.pathChallenge dat) := path_ok h (by decide) rfl rfl h

theorem C60_path_response {rem : Nat} {dat : Bytes} (h : dat.length = 8) :
    Writes rem (writePath rem .pathResponse dat) (.pathResponse dat) := path_ok h (by decide) rfl rfl h

theorem C60_new_connection_id {rem seq : Nat} {cid token : Bytes} (h1 : seq < 2 ^ 62) (h2 : 1 ≤ cid.length)
    (h3 : cid.length ≤ 20) (h4 : token.length = 16) :
    Writes rem (writeNewConnectionId rem seq cid token) (.newConnectionId seq 0 cid token) :=
  newConnectionId_ok h1 h2 h3 h4

example : (writeNewConnectionId 24 7 [1, 2, 3, 4] (List.replicate 16 9)).toOption.isSome = true := by decide +kernel

theorem C60_new_token {rem : Nat} {token : Bytes} (h1 : token ≠ []) (h2 : token.length < 2 ^ 62) :
    Writes rem (writeNewToken rem token) (.newToken token) := newToken_ok h1 h2

/-- PING is written without a check: it takes one byte. -/
theorem C60_ping : ∃ w, writePing = .ok w ∧ Wire .ping w ∧ w.length = 1 := by
  obtain ⟨e, h1, h2, h3⟩ := typeBytes .ping
  exact ⟨e, h1, (wire_only (fs := []) rfl rfl).mpr ⟨e, [], h2, rfl, by simp⟩, h3⟩

/-- CRYPTO: what is written is a beginning of the data, at its offset, and fits.  It is not empty unless
the data is.  Nothing is written only if not even a frame with one byte fits. -/
theorem C60_crypto {rem off : Nat} {dat : Bytes} (h : off + dat.length < 2 ^ 62) :
    ∃ o, writeCrypto rem off dat = .ok o ∧
      (∀ w n, o = some (w, n) → n ≤ dat.length ∧ (dat ≠ [] → 0 < n) ∧ (Frame.crypto off (dat.take n)).Valid ∧
        Wire (.crypto off (dat.take n)) w ∧ w.length ≤ rem) ∧
      (o = none → dat ≠ [] → ∀ w n, 0 < n → Wire (.crypto off (dat.take n)) w → rem < w.length) := crypto_ok h

/-- With 67 bytes left, the length takes two bytes if the data takes 64, so 63 are written. -/
example : (writeCrypto 67 5 (List.replicate 100 1)).toOption.map (fun o => o.map (fun p => (p.1.length, p.2))) =
    some (some (66, 63)) := by decide +kernel

/-- STREAM: what is written is a beginning of the data, at its offset, and fits; it carries the end of
the stream exactly if it reaches it.  Nothing is written only if no frame with data or the end of the
stream fits. -/
theorem C60_stream {rem id off : Nat} {dat : Bytes} {finOff : Option Nat} (hi : id < 2 ^ 62)
    (h : off + dat.length < 2 ^ 62) :
    ∃ o, writeStream rem id off dat finOff = .ok o ∧
      (∀ w n fill, o = some (w, n, fill) → n ≤ dat.length ∧
        ∃ fin, (fin = true ↔ finOff = some (off + n)) ∧ (n = 0 → fin = true) ∧
          Frame.Valid (.stream id off (dat.take n) fin fill) ∧
          Wire (.stream id off (dat.take n) fin fill) w ∧ w.length ≤ rem) ∧
      (o = none → ∀ w n fin fill, n ≤ dat.length → (fin = true ↔ finOff = some (off + n)) → (0 < n ∨ fin = true) →
        Wire (.stream id off (dat.take n) fin fill) w → rem < w.length) := stream_ok hi h

/-- The last two bytes of a stream: with room for the length and without. -/
example : writeStream 20 4 300 [7, 8] (some 302) = .ok (some ([0x0f, 4, 0x41, 0x2c, 2, 7, 8], 2, false)) ∧
    writeStream 7 4 300 [7, 8] (some 302) = .ok (some ([0x0d, 4, 0x41, 0x2c, 7, 8], 2, true)) ∧
    writeStream 5 4 300 [7, 8] (some 302) = .ok (some ([0x0c, 4, 0x41, 0x2c, 7], 1, true)) := by decide +kernel

/-- DATAGRAM: all of the data is written, or nothing, and it fits; it is written if any form fits. -/
theorem C60_datagram {rem : Nat} {dat : Bytes} (h : dat.length < 2 ^ 62) :
    ∃ o, writeDatagram rem dat = .ok o ∧
      (∀ w fill, o = some (w, fill) → Wire (.datagram dat fill) w ∧ w.length ≤ rem) ∧
      (o = none → ∀ w fill, Wire (.datagram dat fill) w → rem < w.length) := datagram_ok h

example : writeDatagram 7 [1, 2, 3] = .ok (some ([0x31, 3, 1, 2, 3], false)) ∧
    writeDatagram 6 [1, 2, 3] = .ok (some ([0x30, 1, 2, 3], true)) := by decide +kernel

/-- ACK: with as many ranges as the space left allows, it fits, with or without the counts of ECN. -/
theorem C60_ack {rem m largest delay first : Nat} {ranges : List (Nat × Nat)} {ecn : Option (Nat × Nat × Nat)}
    (h1 : largest < 2 ^ 62) (h2 : delay < 2 ^ 62) (h3 : first < 2 ^ 62) (h4 : ∀ p ∈ ranges, p.1 < 2 ^ 62 ∧ p.2 < 2 ^ 62)
    (h5 : ∀ x y z, ecn = some (x, y, z) → x < 2 ^ 62 ∧ y < 2 ^ 62 ∧ z < 2 ^ 62)
    (hm : maxRanges rem = some m) (hr : ranges.length + 1 ≤ m) :
    ∃ w, ackBytes largest delay first ranges ecn = .ok w ∧ Wire (.ack largest delay first ranges ecn) w ∧
      (Frame.ack largest delay first ranges ecn).Valid ∧ w.length ≤ rem := ack_bytes_ok h1 h2 h3 h4 h5 hm hr

/-- Exactly full: all integers of eight bytes and two ranges. -/
example : maxRanges 66 = some 2 ∧
    (ackBytes (2 ^ 61) (2 ^ 61) (2 ^ 61) [(2 ^ 61, 2 ^ 61)] (some (2 ^ 61, 2 ^ 61, 2 ^ 61))).toOption.map List.length =
      some 66 := by decide +kernel

/-- A packet without space left, as after a frame that extends to the end of the packet, stays as it
is. -/
theorem C60_nothing_after_full {res : Except Err (Option Bytes)} {f : Frame} (h : Writes 0 res f) : res = .ok none := by
  obtain ⟨o, rfl, h1, _⟩ := h
  cases o with
  | none => rfl
  | some w =>
    have := wire_ne (h1 w rfl).2.1
    have := (h1 w rfl).2.2
    omega

example : Writes 0 (writeMaxData 0 5) (.maxData 5) := C60_max_data (by decide)

theorem close_bytes {rem code ftype : Nat} {app : Bool} {reason : Bytes} (h1 : code < 2 ^ 62) (h2 : ftype < 2 ^ 62)
    (h3 : reason.length < 2 ^ 62) (hr : closeMinLen ≤ rem) :
    ∃ w k m n s, writeClose rem app code ftype reason = .ok (some w) ∧
      Wire (.connectionClose app code (if app then 0 else ftype) (reason.take k)) w ∧
      varintLen reason.length = some m ∧ varintLen (reason.take k).length = some n ∧ 2 ≤ s ∧ s ≤ 17 ∧
      w.length = s + n + (reason.take k).length ∧
      k = (if min 256 rem < m + reason.length then min 256 rem - 2 else reason.length) := by
  obtain ⟨m, hm⟩ := varintLen_ex h3
  have hvs : ∀ v ∈ (if app then [code] else [code, ftype]), v < 2 ^ 62 := by
    intro v hv
    cases app <;> simp at hv
    · rcases hv with rfl | rfl <;> assumption
    · rw [hv]; exact h1
  obtain ⟨et, e, g1, _, g2, _, g3, g4, _⟩ := evs_type (t := .connectionClose app) hvs
  have het : et.length = 1 := by rw [g3.len]; cases app <;> rfl
  have hel : e.length ≤ 16 := by
    have := evs_len hvs g2
    cases app <;> simp at this <;> omega
  have hel1 : 1 ≤ e.length := by
    cases app
    · obtain ⟨x, y, hx, _, rfl⟩ := g4
      have := List.length_pos_iff.mpr (IsVar.ne_nil hx)
      rw [List.length_append]; omega
    · obtain ⟨x, y, hx, _, rfl⟩ := g4
      have := List.length_pos_iff.mpr (IsVar.ne_nil hx)
      rw [List.length_append]; omega
  let k := if min 256 rem < m + reason.length then min 256 rem - 2 else reason.length
  have hreason : (if min 256 rem < m + reason.length then reason.take (min 256 rem - 2) else reason) = reason.take k := by
    show _ = reason.take (if min 256 rem < m + reason.length then min 256 rem - 2 else reason.length)
    split
    · rfl
    · rw [List.take_length]
  have hk : (reason.take k).length < 2 ^ 62 := by rw [List.length_take]; omega
  obtain ⟨l, l1, l2, l3⟩ := evv_ok hk
  refine ⟨et ++ e ++ (l ++ reason.take k), k, m, l.length, 1 + e.length, ?_, ?_, hm, l2, by omega, by omega, ?_, rfl⟩
  · unfold writeClose lv
    rw [if_neg (by omega), hm]
    simp only [bind, Except.bind, pure, Except.pure]
    rw [hreason, l3]
    have : evs (if app then [(FType.connectionClose true).code, code] else [(FType.connectionClose false).code, code, ftype]) =
        .ok (et ++ e) := by
      cases app <;> exact g1
    rw [this]
  · cases app
    · exact (wire_only rfl rfl).mpr ⟨et, e ++ (l ++ reason.take k), g3,
        fields_append.mpr ⟨e, _, g4, fields_one.mpr (show (Field.counted _).Is _ from ⟨l, l1, rfl⟩), rfl⟩, by simp⟩
    · exact (wire_only rfl rfl).mpr ⟨et, e ++ (l ++ reason.take k), g3,
        fields_append.mpr ⟨e, _, g4, fields_one.mpr (show (Field.counted _).Is _ from ⟨l, l1, rfl⟩), rfl⟩, by simp⟩
  · simp only [List.length_append, het]; omega

/-- CONNECTION_CLOSE carries the error and a beginning of the reason, and fits if there are 274 bytes
left.

What is missing: with less space left, it may be longer than that (`C60_close_does_not_fit`). -/
theorem C60_close_partial {rem code ftype : Nat} {app : Bool} {reason : Bytes} (h1 : code < 2 ^ 62)
    (h2 : ftype < 2 ^ 62) (h3 : reason.length < 2 ^ 62) :
    ∃ o, writeClose rem app code ftype reason = .ok o ∧ (closeMinLen ≤ rem → o ≠ none) ∧
      ∀ w, o = some w → ∃ k, Wire (.connectionClose app code (if app then 0 else ftype) (reason.take k)) w ∧
        Frame.Valid (.connectionClose app code (if app then 0 else ftype) (reason.take k)) ∧
        (274 ≤ rem → w.length ≤ rem) := by
  by_cases hr : closeMinLen ≤ rem
  · obtain ⟨w, k, m, n, s, g1, g2, g3, g4, g5, g6, g7, g8⟩ := close_bytes (app := app) h1 h2 h3 hr
    refine ⟨some w, g1, (fun _ h => by cases h), ?_⟩
    intro w' hw
    cases hw
    refine ⟨k, g2, (fun ha => by rw [if_pos ha]), ?_⟩
    intro h4
    rw [g7]
    rw [List.length_take] at g4 ⊢
    split at g8
    · have a : min k reason.length ≤ 254 := by omega
      have b := varintLen_mono a (by decide) g4 (show varintLen 254 = some 2 from rfl)
      omega
    · rw [g8, Nat.min_self] at g4 ⊢
      rw [g3] at g4
      cases g4
      omega
  · refine ⟨none, ?_, (fun h => absurd h hr), (fun w h => by cases h)⟩
    unfold writeClose
    rw [if_pos (by omega)]

example : writeClose 1000 false 10 8 [0x68, 0x69] = .ok (some [0x1c, 10, 8, 2, 0x68, 0x69]) := by decide +kernel

/-- With at most 256 bytes left, CONNECTION_CLOSE with a reason that has to be shortened is written
beyond the space left: the reason is shortened to that space, without what precedes it. -/
theorem C60_close_does_not_fit {rem code ftype : Nat} {app : Bool} {reason : Bytes} (h1 : code < 2 ^ 62)
    (h2 : ftype < 2 ^ 62) (h3 : reason.length < 2 ^ 62) (hr : closeMinLen ≤ rem) (hr' : rem ≤ 256)
    (hl : rem ≤ reason.length) :
    ∃ w, writeClose rem app code ftype reason = .ok (some w) ∧ rem < w.length := by
  obtain ⟨w, k, m, n, s, g1, g2, g3, g4, g5, g6, g7, g8⟩ := close_bytes (app := app) h1 h2 h3 hr
  refine ⟨w, g1, ?_⟩
  have hm := varintLen_le h3 g3
  rw [if_pos (by omega)] at g8
  have hkl : (reason.take k).length = rem - 2 := by rw [List.length_take]; omega
  rw [hkl] at g4 g7
  have hn := varintLen_le (by omega) g4
  omega

example : (writeClose 200 true 3 0 (List.replicate 300 65)).toOption.map (fun o => o.map List.length) =
    some (some 202) := by decide +kernel

/-! ## C61: frames only where they belong -/

/-- A frame is accepted only in packets that may carry it. -/
theorem C61_allowed {f : Frame} {pt : PType} (h : f.isAllowed pt = true) : f.AllowedIn pt := by
  cases f
  case connectionClose a c t r => cases a <;> cases pt <;> simp_all [Frame.isAllowed, Frame.AllowedIn]
  all_goals (cases pt <;> simp_all [Frame.isAllowed, Frame.AllowedIn])

/-- A frame that a packet may carry is accepted, but for CONNECTION_CLOSE in 0-RTT packets.

What is missing: that frame (`C61_close_refused_in_0rtt`). -/
theorem C61_accepted_partial {f : Frame} {pt : PType} (h : f.AllowedIn pt)
    (hc : pt = .zeroRtt → ∀ a c t r, f ≠ .connectionClose a c t r) : f.isAllowed pt = true := by
  cases f
  case connectionClose a c t r =>
    cases pt
    case zeroRtt => exact absurd rfl (hc rfl a c t r)
    all_goals (cases a <;> simp_all [Frame.isAllowed, Frame.AllowedIn])
  all_goals (cases pt <;> simp_all [Frame.isAllowed, Frame.AllowedIn])

/-- CONNECTION_CLOSE is refused in 0-RTT packets, which may carry it. -/
theorem C61_close_refused_in_0rtt {a : Bool} {c t : Nat} {r : Bytes} :
    Frame.AllowedIn (.connectionClose a c t r) .zeroRtt ∧ Frame.isAllowed (.connectionClose a c t r) .zeroRtt = false := by
  cases a <;> simp [Frame.isAllowed, Frame.AllowedIn]

/-- A packet that is read consists of valid frames, at least one, that it may carry. -/
theorem C61_packet {pt : PType} {b : Bytes} {fs : List Frame} (h : decodePacket pt b = .ok fs) :
    fs ≠ [] ∧ Frames fs b ∧ ∀ f ∈ fs, f.AllowedIn pt := by
  obtain ⟨h1, h2, h3⟩ := decodePacket_ok.mp h
  exact ⟨h1, h2, fun f hf => C61_allowed (h3 f hf)⟩

example : decodePacket .initial [0x1, 0x1e] = .error .protocolViolation ∧
    decodePacket .short [0x1, 0x1e] = .ok [.ping, .handshakeDone] ∧
    decodePacket .short [] = .error .protocolViolation := by decide +kernel

/-- A packet asks for an acknowledgment exactly if one of its frames does. -/
theorem C61_eliciting {fs : List Frame} : (packetFlags fs).1 = true ↔ ∃ f ∈ fs, f.Eliciting := by
  unfold packetFlags
  rw [flags_from]
  simp [eliciting_ok]

/-- A packet only probes a path exactly if all of its frames do. -/
theorem C61_probing {fs : List Frame} : (packetFlags fs).2 = true ↔ ∀ f ∈ fs, f.Probing := by
  unfold packetFlags
  rw [flags_from]
  simp [probing_ok]

example : packetFlags [.padding 4, .ack 3 0 0 [] none] = (false, false) ∧
    packetFlags [.padding 4, .pathResponse (List.replicate 8 0)] = (true, true) := by decide +kernel

/-- The type reported for a frame is one that its forms have, but for DATAGRAM and ACK with ECN counts.

What is missing: those (`C61_type_of_datagram`, `C61_type_of_ack`). -/
theorem C61_type_partial {f : Frame} (h1 : ∀ d fill, f ≠ .datagram d fill) (h2 : ∀ a b c d e, f ≠ .ack a b c d (some e)) :
    ∃ l, (l = f.layout ∨ some l = f.layoutNoOffset) ∧ f.type.code = l.1 := by
  cases f
  case datagram d fill => exact absurd rfl (h1 d fill)
  case ack a b c d e =>
    cases e with
    | none => exact ⟨_, Or.inl rfl, rfl⟩
    | some e => exact absurd rfl (h2 a b c d e)
  case stream id off dat fin fill =>
    by_cases h : off = 0
    · subst h
      exact ⟨_, Or.inr rfl, by cases fin <;> cases fill <;> rfl⟩
    · refine ⟨_, Or.inl rfl, ?_⟩
      unfold Frame.type
      rw [streamType_code, decide_eq_true (by omega)]
      rfl
  case maxStreams u m => cases u <;> exact ⟨_, Or.inl rfl, rfl⟩
  case streamsBlocked u m => cases u <;> exact ⟨_, Or.inl rfl, rfl⟩
  case connectionClose a c t r => cases a <;> exact ⟨_, Or.inl rfl, rfl⟩
  all_goals exact ⟨_, Or.inl rfl, rfl⟩

/-- The two types of DATAGRAM are exchanged. -/
theorem C61_type_of_datagram {d : Bytes} {fill : Bool} :
    (Frame.datagram d fill).type.code = (Frame.datagram d (!fill)).layout.1 ∧
      (Frame.datagram d fill).type.code ≠ (Frame.datagram d fill).layout.1 := by
  cases fill
  · exact ⟨rfl, show (0x30 : Nat) ≠ 0x31 by decide⟩
  · exact ⟨rfl, show (0x31 : Nat) ≠ 0x30 by decide⟩

/-- An ACK with ECN counts is reported as one without. -/
theorem C61_type_of_ack {a b c : Nat} {d : List (Nat × Nat)} {e : Nat × Nat × Nat} :
    (Frame.ack a b c d (some e)).type.code ≠ (Frame.ack a b c d (some e)).layout.1 := by
  show (2 : Nat) ≠ 3
  decide

end Neqo.Frm
