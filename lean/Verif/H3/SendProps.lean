import Verif.H3.Send
import Verif.H3.SettingsProps
import Mathlib.Data.List.Perm.Subperm

/-!
# C68: frames are read as they were written
-/
namespace Neqo.H3
open Neqo.Codec
open Spec (Kind also read Arrives AllArrive Sendable)

variable {T : Type}

/-- Reading what starts with a type and a length. -/
theorem read_header {kind : Nat → Kind T} {t len : Nat} {a l : Bytes}
    (ha : ∀ s, decodeVarint (a ++ s) = some (t, s))
    (hl : ∀ s, decodeVarint (l ++ s) = some (len, s))
    (hk : kind t ≠ .reserved) (rest : Bytes) (fin : Bool) :
    read kind (a ++ (l ++ rest)) fin = afterLen kind (fun r => read kind r fin) t len rest fin := by
  have hne : a ++ (l ++ rest) ≠ [] := by
    intro h
    have := ha (l ++ rest)
    rw [h, C02_decode_nil] at this
    cases this
  rw [read_ne _ _ _ hne, ha]
  simp only [afterType, hl]

theorem encodeVvec_ok {v : Bytes} (h : v.length < 2 ^ 62) :
    ∃ l, encodeVvec v = some (l ++ v) ∧ ∀ s, decodeVarint (l ++ s) = some (v.length, s) := by
  obtain ⟨l, hl, hd⟩ := encodeVarint_decode h
  exact ⟨l, by simp [encodeVvec, hl], hd⟩

/-- A frame that is read as a whole. -/
theorem read_whole {kind : Nat → Kind T} {t limit : Nat} {parse : Bytes → Except Err T} {f : T}
    {payload : Bytes} (ht : t < 2 ^ 62) (hk : kind t = .whole limit parse)
    (hlim : payload.length ≤ limit) (hlen : payload.length < 2 ^ 62) (hp : parse payload = .ok f) :
    ∃ a b, encodeVarint t = some a ∧ encodeVvec payload = some b ∧ ∀ rest fin,
      read kind (a ++ b ++ rest) fin = also [.frame f] (read kind rest fin) := by
  obtain ⟨a, ha, hda⟩ := encodeVarint_decode ht
  obtain ⟨l, hl, hdl⟩ := encodeVvec_ok hlen
  refine ⟨a, _, ha, hl, fun rest fin => ?_⟩
  rw [List.append_assoc, List.append_assoc, read_header hda hdl (by rw [hk]; intro h; cases h)]
  unfold afterLen
  rw [hk]
  simp only
  rw [if_neg (by omega), if_neg (by simp), List.take_left' rfl, List.drop_left' rfl, hp]

theorem varint_length {v : Nat} {e : Bytes} (h : encodeVarint v = some e) : e.length ≤ 8 := by
  have := encodeVarint_length v
  rw [h] at this
  simp only [Option.map_some] at this
  unfold varintLen at this
  repeat' split at this
  all_goals first | cases this | (simp at this; omega)

theorem encodePairs_length : ∀ (ps : List (Nat × Nat)) (e : Bytes), encodePairs ps = some e →
    e.length ≤ 16 * ps.length
  | [], e, h => by simp only [encodePairs, Option.some.injEq] at h; subst h; simp
  | (t, v) :: ps, e, h => by
    cases ha : encodeVarint t with
    | none => simp [encodePairs, ha] at h
    | some a =>
      cases hb : encodeVarint v with
      | none => simp [encodePairs, ha, hb] at h
      | some b =>
        cases hr : encodePairs ps with
        | none => simp [encodePairs, ha, hb, hr] at h
        | some r =>
          simp [encodePairs, ha, hb, hr] at h
          subst h
          have := encodePairs_length ps r hr
          have := varint_length ha
          have := varint_length hb
          simp only [List.length_append, List.length_cons]
          omega

theorem wire_length (x : Setting) : x.wire.length ≤ 2 := by
  obtain ⟨ty, v⟩ := x
  cases ty <;> simp only [Setting.wire] <;> first | simp | (split <;> simp)

theorem wires_length : ∀ (s : Settings), (s.flatMap Setting.wire).length ≤ 2 * s.length
  | [] => by simp
  | x :: s => by
    have := wire_length x
    have := wires_length s
    simp only [List.flatMap_cons, List.length_append, List.length_cons]
    omega

/-- Settings with distinct types take few bytes. -/
theorem encode_short (s : Settings) (h : (s.map Setting.ty).Nodup) {e : Bytes}
    (he : s.encode = some e) : e.length ≤ 192 := by
  have h1 := encodePairs_length _ _ he
  have h2 := wires_length s
  have h3 : s.length ≤ 6 := by
    have hs : s.map Setting.ty ⊆ [.maxHeaderListSize, .maxTableCapacity, .blockedStreams,
        .enableWebTransport, .enableH3Datagram, .enableConnect] := by
      intro x _; cases x <;> simp
    have := (List.Nodup.subperm h hs).length_le
    simpa using this
  omega

theorem oneVarint_ok {mk : Nat → HFrame} {v : Nat} {e : Bytes} (hv : v < 2 ^ 62)
    (h : encodeVarint v = some e) : Spec.oneVarint mk e = .ok (mk v) := by
  obtain ⟨e', he', hd⟩ := encodeVarint_decode hv
  rw [h] at he'; cases he'
  have := hd []
  rw [List.append_nil] at this
  unfold Spec.oneVarint
  rw [this]

theorem varintAnd_ok {mk : Nat → Bytes → Except Err HFrame} {v : Nat} {e b : Bytes}
    (hv : v < 2 ^ 62) (h : encodeVarint v = some e) : Spec.varintAnd mk (e ++ b) = mk v b := by
  obtain ⟨e', he', hd⟩ := encodeVarint_decode hv
  rw [h] at he'; cases he'
  unfold Spec.varintAnd
  rw [hd]

theorem grease_unknown (prio : Bytes → Except Err Priority) (r : Nat) :
    Spec.http3 prio (greaseType r) = .unknown := by
  unfold greaseType
  generalize r >>> 7 = n
  have h : ∀ c, c ∈ [0x0, 0x1, 0x3, 0x4, 0x5, 0x7, 0xd, 0xf0700, 0xf0701, 0x2, 0x6, 0x8, 0x9] →
      n * 0x1f + 0x21 ≠ c := by
    intro c hc
    simp only [List.mem_cons, List.not_mem_nil, or_false] at hc
    omega
  unfold Spec.http3
  split <;> first | rfl | (rename_i he; exact absurd he (h _ (by decide)))

/-- The priority parser takes what the implementation prints. -/
def Prints (prio : Bytes → Except Err Priority) (disp : Priority → Bytes) : Prop :=
  ∀ p : Priority, p.urgency < 8 → prio (disp p) = .ok p ∧ (disp p).length ≤ 5

theorem headers_arrive (prio : Bytes → Except Err Priority) (disp : Priority → Bytes)
    (block : Bytes) (h : block.length ≤ 384 * 1024) :
    ∃ e items, Sent.encode disp (.frame (.headers block)) = some e ∧
      Arrives (.frame (.headers block)) items ∧ ∀ rest fin,
      read (Spec.http3 prio) (e ++ rest) fin = also items (read (Spec.http3 prio) rest fin) := by
  obtain ⟨a, b, ha, hb, hr⟩ := read_whole (kind := Spec.http3 prio) (t := 0x1) (by decide) rfl h
    (by omega) rfl
  exact ⟨a ++ b, _, by simp [Sent.encode, hType, hEncodeBody, ha, hb], rfl, hr⟩

theorem data_arrives (prio : Bytes → Except Err Priority) (disp : Priority → Bytes)
    (payload : Bytes) (h : payload.length < 2 ^ 62) :
    ∃ e items, Sent.encode disp (.data payload) = some e ∧
      Arrives (.data payload) items ∧ ∀ rest fin,
      read (Spec.http3 prio) (e ++ rest) fin = also items (read (Spec.http3 prio) rest fin) := by
  obtain ⟨a, ha, hda⟩ := encodeVarint_decode (v := 0) (by decide)
  obtain ⟨b, hb, hdb⟩ := encodeVarint_decode h
  refine ⟨a ++ b ++ payload, _, by simp [Sent.encode, ha, hb], rfl, fun rest fin => ?_⟩
  rw [List.append_assoc, List.append_assoc,
    read_header (kind := Spec.http3 prio) hda hdb (by intro h; cases h)]
  show also _ _ = _
  rw [if_neg (by simp), List.take_left' rfl, List.drop_left' rfl]

theorem sent_arrives {prio : Bytes → Except Err Priority} {disp : Priority → Bytes}
    (hpd : Prints prio disp) (s : Sent) (h : Sendable s) :
    ∃ e items, s.encode disp = some e ∧ Arrives s items ∧ ∀ rest fin,
      read (Spec.http3 prio) (e ++ rest) fin = also items (read (Spec.http3 prio) rest fin) := by
  have one : ∀ (t id : Nat) (mk : Nat → HFrame), t < 2 ^ 62 → id < 2 ^ 62 →
      Spec.http3 prio t = .whole 8 (Spec.oneVarint mk) →
      ∃ a i b, encodeVarint t = some a ∧ encodeVarint id = some i ∧ encodeVvec i = some b ∧
        ∀ rest fin, read (Spec.http3 prio) (a ++ b ++ rest) fin =
          also [.frame (mk id)] (read (Spec.http3 prio) rest fin) := by
    intro t id mk ht hid hk
    obtain ⟨i, hi, _⟩ := encodeVarint_decode hid
    have hl := varint_length hi
    obtain ⟨a, b, ha, hb, hr⟩ := read_whole ht hk (payload := i) hl (by omega) (oneVarint_ok hid hi)
    exact ⟨a, i, b, ha, hi, hb, hr⟩
  have upd : ∀ (t id : Nat) (p : Priority) (mk : Nat → Priority → HFrame), t < 2 ^ 62 → id < 2 ^ 62 →
      p.urgency < 8 →
      Spec.http3 prio t = .whole 4096 (Spec.varintAnd fun id b => (prio b).map (mk id)) →
      ∃ a i b, encodeVarint t = some a ∧ encodeVarint id = some i ∧
        encodeVvec (i ++ disp p) = some b ∧
        ∀ rest fin, read (Spec.http3 prio) (a ++ b ++ rest) fin =
          also [.frame (mk id p)] (read (Spec.http3 prio) rest fin) := by
    intro t id p mk ht hid hp hk
    obtain ⟨i, hi, _⟩ := encodeVarint_decode hid
    have hl := varint_length hi
    obtain ⟨hp1, hp2⟩ := hpd p hp
    obtain ⟨a, b, ha, hb, hr⟩ := read_whole ht hk (payload := i ++ disp p) (f := mk id p)
      (by simp; omega) (by simp; omega) (by rw [varintAnd_ok hid hi, hp1]; rfl)
    exact ⟨a, i, b, ha, hi, hb, hr⟩
  cases s with
  | frame f =>
    cases f with
    | data len => exact absurd h id
    | grease => exact absurd h id
    | headers block => exact headers_arrive prio disp block h
    | cancelPush id =>
      obtain ⟨a, i, b, ha, hi, hb, hr⟩ := one 0x3 id .cancelPush (by decide) h rfl
      exact ⟨a ++ b, _, by simp [Sent.encode, hType, hEncodeBody, ha, hi, hb], rfl, hr⟩
    | goaway id =>
      obtain ⟨a, i, b, ha, hi, hb, hr⟩ := one 0x7 id .goaway (by decide) h rfl
      exact ⟨a ++ b, _, by simp [Sent.encode, hType, hEncodeBody, ha, hi, hb], rfl, hr⟩
    | maxPushId id =>
      obtain ⟨a, i, b, ha, hi, hb, hr⟩ := one 0xd id .maxPushId (by decide) h rfl
      exact ⟨a ++ b, _, by simp [Sent.encode, hType, hEncodeBody, ha, hi, hb], rfl, hr⟩
    | settings s =>
      obtain ⟨bs, s', he, hd, hg⟩ := C66_roundtrip s h
      have hlen := encode_short s h.1 he
      obtain ⟨a, b, ha, hb, hr⟩ := read_whole (kind := Spec.http3 prio) (t := 0x4)
        (payload := bs) (f := .settings s') (by decide) rfl (by omega) (by omega) (by simp only [hd])
      exact ⟨a ++ b, _, by simp [Sent.encode, hType, hEncodeBody, ha, he, hb], ⟨s', rfl, hg⟩, hr⟩
    | pushPromise id block =>
      obtain ⟨hid, hl⟩ := h
      obtain ⟨i, hi, _⟩ := encodeVarint_decode hid
      have hli := varint_length hi
      obtain ⟨a, b, ha, hb, hr⟩ := read_whole (kind := Spec.http3 prio) (t := 0x5)
        (payload := i ++ block) (f := .pushPromise id block) (by decide) rfl
        (by simp; omega) (by simp; omega) (varintAnd_ok hid hi)
      exact ⟨a ++ b, _, by simp [Sent.encode, hType, hEncodeBody, ha, hi, hb], rfl, hr⟩
    | priorityUpdateRequest id p =>
      obtain ⟨a, i, b, ha, hi, hb, hr⟩ := upd 0xf0700 id p .priorityUpdateRequest (by decide) h.1 h.2 rfl
      exact ⟨a ++ b, _, by simp [Sent.encode, hType, hEncodeBody, ha, hi, hb], rfl, hr⟩
    | priorityUpdatePush id p =>
      obtain ⟨a, i, b, ha, hi, hb, hr⟩ := upd 0xf0701 id p .priorityUpdatePush (by decide) h.1 h.2 rfl
      exact ⟨a ++ b, _, by simp [Sent.encode, hType, hEncodeBody, ha, hi, hb], rfl, hr⟩
  | data payload => exact data_arrives prio disp payload h
  | grease r bytes =>
    obtain ⟨hr, hl⟩ := h
    have ht : greaseType r < 2 ^ 62 := by
      unfold greaseType
      rw [Nat.shiftRight_eq_div_pow]
      omega
    obtain ⟨a, ha, hda⟩ := encodeVarint_decode ht
    obtain ⟨l, hb, hdb⟩ := encodeVvec_ok (v := bytes) (by omega)
    refine ⟨a ++ (l ++ bytes), [], by simp [Sent.encode, ha, hb], rfl, fun rest fin => ?_⟩
    have hk := grease_unknown prio r
    rw [List.append_assoc, List.append_assoc, read_header hda hdb (by rw [hk]; intro h; cases h)]
    unfold afterLen
    rw [hk]
    simp only
    rw [if_neg (by simp), List.drop_left' rfl, also_nil]

theorem all_arrive {prio : Bytes → Except Err Priority} {disp : Priority → Bytes}
    (hpd : Prints prio disp) : ∀ (ss : List Sent), (∀ s ∈ ss, Sendable s) →
    ∃ bs groups, encodeAll disp ss = some bs ∧ AllArrive ss groups ∧ ∀ rest fin,
      read (Spec.http3 prio) (bs ++ rest) fin =
        also groups.flatten (read (Spec.http3 prio) rest fin)
  | [], _ => ⟨[], [], rfl, .nil, fun _ _ => rfl⟩
  | s :: ss, h => by
    obtain ⟨e, items, he, ha, hr⟩ := sent_arrives hpd s (h s (by simp))
    obtain ⟨bs, groups, hbs, hgs, hrs⟩ := all_arrive hpd ss (fun x hx => h x (by simp [hx]))
    refine ⟨e ++ bs, items :: groups, by simp [encodeAll, he, hbs], .cons ha hgs, fun rest fin => ?_⟩
    rw [List.append_assoc, hr, hrs, also_also]
    rfl

/-- C68: whatever an endpoint writes to an HTTP/3 stream, the peer reads it as it
was written, frame for frame and byte for byte, however the bytes are divided
when they arrive.  Frames of random types are invisible. -/
theorem C68_frames (prio : Bytes → Except Err Priority) (disp : Priority → Bytes)
    (hpd : Prints prio disp) (ss : List Sent) (h : ∀ s ∈ ss, Sendable s) :
    ∃ bs groups, encodeAll disp ss = some bs ∧ AllArrive ss groups ∧
      ∀ (pieces : List Bytes) (fin : Bool), pieces ≠ [] → pieces.flatten = bs →
        Pump.feed (hDecoder prio) hPayload ⟨Reader.new, 0⟩ pieces fin =
          (groups.flatten, if fin then .finished else .more) := by
  obtain ⟨bs, groups, hbs, hgs, hr⟩ := all_arrive hpd ss h
  refine ⟨bs, groups, hbs, hgs, fun pieces fin hne hfl => ?_⟩
  rw [C43_http3 prio pieces fin hne, hfl]
  have := hr [] fin
  rw [List.append_nil] at this
  rw [this, read_nil]
  simp [also]

/-- `Display` of `Priority` (priority.rs:78-98) for the digits 0 to 7. -/
def displayPriority (p : Priority) : Bytes :=
  if p.urgency = 3 then (if p.incremental then [0x69] else [])
  else if p.incremental then [0x75, 0x3d, UInt8.ofNat (0x30 + p.urgency), 0x2c, 0x69]
  else [0x75, 0x3d, UInt8.ofNat (0x30 + p.urgency)]

/-- A parser that undoes the printing exists: different priorities are printed
differently. -/
example : ∃ prio, Prints prio displayPriority := by
  refine ⟨fun bs => match (List.range 8).flatMap (fun u => [Priority.mk u false, ⟨u, true⟩])
      |>.find? (fun p => displayPriority p = bs) with
    | some p => .ok p
    | none => .error .httpFrame, fun p hp => ?_⟩
  obtain ⟨u, i⟩ := p
  simp only at hp
  revert i
  have : ∀ u < 8, ∀ i, (match ((List.range 8).flatMap (fun u => [Priority.mk u false, ⟨u, true⟩])).find?
      (fun p => displayPriority p = displayPriority ⟨u, i⟩) with
    | some p => Except.ok p
    | none => Except.error Err.httpFrame) = Except.ok ⟨u, i⟩ ∧ (displayPriority ⟨u, i⟩).length ≤ 5 := by
    decide +kernel
  exact fun i => this u hp i

example : Sendable (.frame (.settings (Settings.ofParams ⟨65536, 20, true, true, false⟩))) ∧
    Sendable (.frame (.headers [1, 2])) ∧ Sendable (.data [7, 8]) ∧ Sendable (.grease 12345 [1]) ∧
    Sendable (.frame (.priorityUpdateRequest 4 ⟨7, true⟩)) := by
  refine ⟨(by decide : Settings.Ok _), ?_, ?_, ?_, ?_⟩ <;> simp [Sendable]

/-- Header blocks larger than the limit are written all the same, and the peer
(with this implementation) refuses the frame and with it the connection. -/
theorem C68_large_headers_refused (prio : Bytes → Except Err Priority) (disp : Priority → Bytes)
    (block : Bytes) (h : 384 * 1024 < block.length) (h2 : block.length < 2 ^ 62) :
    ∃ e, Sent.encode disp (.frame (.headers block)) = some e ∧ ∀ (pieces : List Bytes) fin,
      pieces ≠ [] → pieces.flatten = e →
      Pump.feed (hDecoder prio) hPayload ⟨Reader.new, 0⟩ pieces fin =
        ([], .failed .httpExcessiveLoad) := by
  obtain ⟨a, ha, hda⟩ := encodeVarint_decode (v := 1) (by decide)
  obtain ⟨l, hl, hdl⟩ := encodeVvec_ok h2
  refine ⟨a ++ (l ++ block), by simp [Sent.encode, hType, hEncodeBody, ha, hl],
    fun pieces fin hne hfl => ?_⟩
  rw [C43_http3 prio pieces fin hne, hfl,
    read_header (kind := Spec.http3 prio) hda hdl (by intro h; cases h)]
  show (if 384 * 1024 < block.length then _ else _) = _
  rw [if_pos h]

/-- C68 for the frame that closes a WebTransport session: error code and reason
arrive if the reason has at most 1024 bytes.

Missing from the full property: longer reasons (`C68_long_reason_refused`). -/
theorem C68_close_session_partial (utf8 : Bytes → Bool) (f : WtFrame) (he : f.error < 2 ^ 32)
    (hu : utf8 f.message = true) (hm : f.message.length ≤ 1024) :
    ∃ e, f.encode = some e ∧ ∀ (pieces : List Bytes) fin, pieces ≠ [] → pieces.flatten = e →
      Pump.feed (wtDecoder utf8) (fun _ => 0) ⟨Reader.new, 0⟩ pieces fin =
        ([.frame f], if fin then .finished else .more) := by
  obtain ⟨a, b, ha, hb, hr⟩ := read_whole (kind := Spec.webTransport utf8) (t := 0x2843)
    (payload := beBytes 4 f.error ++ f.message) (f := f) (by decide) rfl
    (by simp; omega) (by simp; omega) (by
      rw [decodeN_beBytes (by decide) (by decide), Nat.mod_eq_of_lt (by simpa using he)]
      simp only [hu, if_true])
  refine ⟨a ++ b, by simp [WtFrame.encode, ha, hb], fun pieces fin hne hfl => ?_⟩
  rw [C43_webtransport utf8 pieces fin hne, hfl]
  have := hr [] fin
  rw [List.append_nil] at this
  rw [this, read_nil]
  rfl

/-- A reason of more than 1024 bytes is written to the stream without complaint,
and the peer refuses the frame, so that neither the code nor the reason arrive. -/
theorem C68_long_reason_refused (utf8 : Bytes → Bool) (f : WtFrame)
    (hm : 1024 < f.message.length) (hm2 : f.message.length < 2 ^ 61) :
    ∃ e, f.encode = some e ∧ ∀ (pieces : List Bytes) fin, pieces ≠ [] → pieces.flatten = e →
      Pump.feed (wtDecoder utf8) (fun _ => 0) ⟨Reader.new, 0⟩ pieces fin =
        ([], .failed .httpExcessiveLoad) := by
  obtain ⟨a, ha, hda⟩ := encodeVarint_decode (v := 0x2843) (by decide)
  obtain ⟨l, hl, hdl⟩ := encodeVvec_ok (v := beBytes 4 f.error ++ f.message) (by simp; omega)
  refine ⟨a ++ (l ++ (beBytes 4 f.error ++ f.message)), by simp [WtFrame.encode, ha, hl],
    fun pieces fin hne hfl => ?_⟩
  rw [C43_webtransport utf8 pieces fin hne, hfl,
    read_header (kind := Spec.webTransport utf8) hda hdl (by intro h; cases h)]
  show (if 1028 < (beBytes 4 f.error ++ f.message).length then _ else _) = _
  rw [if_pos (by simp; omega)]

/-- C68 for datagrams sent as capsules: they arrive whole and in order. -/
theorem C68_capsules : ∀ (ds : List Bytes), (∀ d ∈ ds, d.length ≤ 65535) →
    ∃ es, ds.mapM capsuleEncode = some es ∧ ∀ (pieces : List Bytes) fin, pieces ≠ [] →
      pieces.flatten = es.flatten →
      Pump.feed capsuleDecoder (fun _ => 0) ⟨Reader.new, 0⟩ pieces fin =
        (ds.map .frame, if fin then .finished else .more) := by
  have key : ∀ (ds : List Bytes), (∀ d ∈ ds, d.length ≤ 65535) →
      ∃ es, ds.mapM capsuleEncode = some es ∧ ∀ rest fin,
        read Spec.capsule (es.flatten ++ rest) fin =
          also (ds.map .frame) (read Spec.capsule rest fin) := by
    intro ds
    induction ds with
    | nil => intro _; exact ⟨[], rfl, fun _ _ => rfl⟩
    | cons d ds ih =>
      intro h
      obtain ⟨es, hes, hr⟩ := ih (fun x hx => h x (by simp [hx]))
      have hd := h d (by simp)
      obtain ⟨a, b, ha, hb, hab⟩ := read_whole (kind := Spec.capsule) (t := 0) (payload := d)
        (f := d) (by decide) rfl hd (by omega) rfl
      refine ⟨(a ++ b) :: es, by simp [List.mapM_cons, capsuleEncode, ha, hb, hes], fun rest fin => ?_⟩
      rw [List.flatten_cons, List.append_assoc, hab, hr, also_also]
      rfl
  intro ds h
  obtain ⟨es, hes, hr⟩ := key ds h
  refine ⟨es, hes, fun pieces fin hne hfl => ?_⟩
  rw [C43_capsule pieces fin hne, hfl]
  have := hr [] fin
  rw [List.append_nil] at this
  rw [this, read_nil]
  simp [also]

end Neqo.H3
