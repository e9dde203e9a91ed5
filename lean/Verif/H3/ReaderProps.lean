import Verif.H3.ReaderPump
import Verif.H3.Frames

/-!
# Reading frames: C43

`Spec.read` reads the frames of a byte string from the whole string, by the
layout of the RFC; `Pump.feed` is the reader (and the loop around it), given the
string in pieces.
-/
namespace Neqo.H3
open Neqo.Codec
open Spec (Kind also)

variable {T : Type} {F : FrameDecoder T} {payload : T → Nat} {kind : Nat → Kind T}

theorem feed_eq (ha : Agrees F payload kind) : ∀ (cs : List Bytes) (p : Pump) (fin : Bool),
    VP kind p → cs ≠ [] → p.feed F payload cs fin = from' kind p cs.flatten fin := by
  intro cs
  induction cs with
  | nil => intro p fin _ h; exact absurd rfl h
  | cons c cs ih =>
    intro p fin hv _
    cases cs with
    | nil =>
      have hg := run_good ha (c.length + 1) p ⟨c, fin⟩ hv (by simp)
      simp only [Pump.feed, List.flatten_cons, List.flatten_nil, List.append_nil]
      obtain ⟨g1, g2⟩ := hg
      by_cases hm : (p.run F payload (c.length + 1) ⟨c, fin⟩).2.1 = .more
      · obtain ⟨h1, h2, h3⟩ := g1 hm
        obtain rfl : fin = false := h1
        have h3' := h3 [] false
        simp only [List.append_nil] at h3'
        rw [h3', from_nil_false _ h2, hm]
        simp [also]
      · have := g2 hm [] fin (fun h => ⟨rfl, h⟩)
        simp only [List.append_nil] at this
        rw [this]
    | cons c' cs' =>
      have hg := run_good ha (c.length + 1) p ⟨c, false⟩ hv (by simp)
      obtain ⟨g1, g2⟩ := hg
      have hfol : ∀ rest fin, Follows ⟨c, false⟩ rest fin := fun _ _ h => by cases h
      rw [Pump.feed, List.flatten_cons]
      · cases hx : p.run F payload (c.length + 1) ⟨c, false⟩ with
        | mk is y =>
          obtain ⟨e, p'⟩ := y
          rw [hx] at g1 g2
          by_cases hm : e = .more
          · subst hm
            obtain ⟨_, h2, h3⟩ := g1 rfl
            simp only
            rw [ih p' fin h2 (by simp), h3]; rfl
          · have := g2 hm (List.flatten (c' :: cs')) fin (hfol _ _)
            rw [this]
            cases e with
            | more => exact absurd rfl hm
            | finished => rfl
            | failed => rfl
      · intro h; cases h

/-- The reader of any protocol whose decoder does what the protocol says. -/
theorem feed_read (ha : Agrees F payload kind) (cs : List Bytes) (fin : Bool) (hne : cs ≠ []) :
    Pump.feed F payload ⟨Reader.new, 0⟩ cs fin = Spec.read kind cs.flatten fin := by
  rw [feed_eq ha cs _ fin (fun _ => vr_new) hne, from_reset Reader.new rfl]

/-! ## The decoders do what the protocols say -/

theorem http3_agrees (prio : Bytes → Except Err Priority) :
    Agrees (hDecoder prio) hPayload (Spec.http3 prio) := by
  intro t
  have one : ∀ (mk : Nat → HFrame) (data : Bytes),
      hFinish ((hOneVarint mk data).map some) = (Spec.oneVarint mk data).map some := by
    intro mk data
    unfold hOneVarint Spec.oneVarint
    cases decodeVarint data with
    | none => rfl
    | some x => obtain ⟨v, rest⟩ := x; cases rest <;> rfl
  have onep : ∀ (mk : Nat → HFrame), (∀ v, hPayload (mk v) = 0) → ∀ data f,
      Spec.oneVarint mk data = .ok f → hPayload f = 0 := by
    intro mk hmk data f h
    unfold Spec.oneVarint at h
    split at h
    · cases h; exact hmk _
    · cases h
  show AgreesAt (hDecoder prio) hPayload t (Spec.http3 prio t)
  unfold Spec.http3
  split
  · exact ⟨rfl, fun len d => ⟨rfl, rfl⟩⟩
  · exact ⟨rfl, rfl, rfl, fun len _ => rfl, fun data _ => rfl, fun data f h => by cases h; rfl⟩
  · refine ⟨rfl, rfl, rfl, fun len _ => rfl, fun data _ => one _ data, onep _ (fun _ => rfl)⟩
  · refine ⟨rfl, rfl, rfl, fun len _ => rfl, fun data _ => ?_, fun data f h => ?_⟩
    · show hFinish (hBody prio _ data) = _
      simp only [hBody, Nat.reduceEqDiff, if_true, if_false]
      cases Settings.decode data with
      | error e => cases e <;> rfl
      | ok s => rfl
    · simp only at h
      split at h <;> cases h
      rfl
  · refine ⟨rfl, rfl, rfl, fun len _ => rfl, fun data _ => ?_, fun data f h => ?_⟩
    · show hFinish (hBody prio _ data) = _
      simp only [hBody, Nat.reduceEqDiff, if_true, if_false, or_false, false_or]
      unfold Spec.varintAnd
      cases decodeVarint data <;> rfl
    · unfold Spec.varintAnd at h
      split at h <;> cases h
      rfl
  · refine ⟨rfl, rfl, rfl, fun len _ => rfl, fun data _ => one _ data, onep _ (fun _ => rfl)⟩
  · refine ⟨rfl, rfl, rfl, fun len _ => rfl, fun data _ => one _ data, onep _ (fun _ => rfl)⟩
  · refine ⟨rfl, rfl, rfl, fun len _ => rfl, fun data _ => ?_, fun data f h => ?_⟩
    · show hFinish (hBody prio _ data) = _
      simp only [hBody, Nat.reduceEqDiff, if_true, if_false, or_false, false_or]
      unfold Spec.varintAnd
      cases decodeVarint data with
      | none => rfl
      | some x => obtain ⟨v, rest⟩ := x; simp only; cases prio rest <;> rfl
    · unfold Spec.varintAnd at h
      split at h
      · rename_i rest _
        simp only at h
        cases hp : prio rest <;> rw [hp] at h <;> cases h
        rfl
      · cases h
  · refine ⟨rfl, rfl, rfl, fun len _ => rfl, fun data _ => ?_, fun data f h => ?_⟩
    · show hFinish (hBody prio _ data) = _
      simp only [hBody, Nat.reduceEqDiff, if_true, if_false, or_false, false_or]
      unfold Spec.varintAnd
      cases decodeVarint data with
      | none => rfl
      | some x => obtain ⟨v, rest⟩ := x; simp only; cases prio rest <;> rfl
    · unfold Spec.varintAnd at h
      split at h
      · rename_i rest _
        simp only at h
        cases hp : prio rest <;> rw [hp] at h <;> cases h
        rfl
      · cases h
  · rfl
  · rfl
  · rfl
  · rfl
  · rename_i h0 h1 h3 h4 h5 h7 hd hr hp h2 h6 h8 h9
    have n0 : ¬ t = 0x0 := fun h => h0 h
    have n1 : ¬ t = 0x1 := fun h => h1 h
    have n2 : ¬ t = 0x2 := fun h => h2 h
    have n3 : ¬ t = 0x3 := fun h => h3 h
    have n4 : ¬ t = 0x4 := fun h => h4 h
    have n5 : ¬ t = 0x5 := fun h => h5 h
    have n6 : ¬ t = 0x6 := fun h => h6 h
    have n7 : ¬ t = 0x7 := fun h => h7 h
    have n8 : ¬ t = 0x8 := fun h => h8 h
    have n9 : ¬ t = 0x9 := fun h => h9 h
    have nd : ¬ t = 0xd := fun h => hd h
    have nr : ¬ t = 0xf0700 := fun h => hr h
    have np : ¬ t = 0xf0701 := fun h => hp h
    refine ⟨?_, ?_, fun len d => ?_⟩
    · simp [hDecoder, hTypeAllowed, n2, n6, n8, n9]
    · simp [hDecoder, hKnown, n0, n1, n3, n4, n5, n7, nd, nr, np]
    · cases d with
      | none => simp [hDecoder, hDecode, n0, pure, Except.pure]
      | some d =>
        simp only [hDecoder, hDecode]
        rw [if_neg n0]
        simp only [hBody, if_neg n1, if_neg n3, if_neg n4, if_neg n5, if_neg n7, if_neg nd]
        rw [if_neg (by omega)]
        rfl

theorem webTransport_agrees (utf8 : Bytes → Bool) :
    Agrees (wtDecoder utf8) (fun _ => 0) (Spec.webTransport utf8) := by
  intro t
  unfold Spec.webTransport
  by_cases ht : t = 0x2843
  · subst ht
    rw [if_pos rfl]
    refine ⟨rfl, rfl, rfl, fun _ _ => rfl, fun data hd => ?_, fun _ _ _ => rfl⟩
    simp only [wtDecoder, if_true]
    rw [if_neg (by omega)]
    cases decodeN 4 data with
    | none => rfl
    | some x =>
      obtain ⟨e, rest⟩ := x
      simp only
      cases utf8 rest <;> rfl
  · rw [if_neg ht]
    refine ⟨rfl, by simp [wtDecoder, ht], fun len d => ?_⟩
    simp only [wtDecoder]
    cases d with
    | none => rfl
    | some d => simp only [if_neg ht]; rfl

theorem capsule_agrees : Agrees capsuleDecoder (fun _ => 0) Spec.capsule := by
  intro t
  unfold Spec.capsule
  by_cases ht : t = 0
  · subst ht
    rw [if_pos rfl]
    exact ⟨rfl, rfl, rfl, fun _ _ => rfl, fun _ _ => rfl, fun _ _ _ => rfl⟩
  · rw [if_neg ht]
    refine ⟨rfl, by simp [capsuleDecoder, ht], fun len d => ?_⟩
    simp only [capsuleDecoder, if_neg ht]; rfl

/-! ## C43 -/

/-- C43: however the bytes of an HTTP/3 stream are divided into pieces, and
whether the end of the stream comes with the last byte or alone, the frames read,
the payload bytes between them and the outcome (waiting, end, or which error) are
those of the whole byte string, read by the layout of the RFC. -/
theorem C43_http3 (prio : Bytes → Except Err Priority) (pieces : List Bytes) (fin : Bool)
    (hne : pieces ≠ []) :
    Pump.feed (hDecoder prio) hPayload ⟨Reader.new, 0⟩ pieces fin =
      Spec.read (Spec.http3 prio) pieces.flatten fin :=
  feed_read (http3_agrees prio) pieces fin hne

/-- C43 for the frames on a WebTransport session stream. -/
theorem C43_webtransport (utf8 : Bytes → Bool) (pieces : List Bytes) (fin : Bool)
    (hne : pieces ≠ []) :
    Pump.feed (wtDecoder utf8) (fun _ => 0) ⟨Reader.new, 0⟩ pieces fin =
      Spec.read (Spec.webTransport utf8) pieces.flatten fin :=
  feed_read (webTransport_agrees utf8) pieces fin hne

/-- C43 for capsules. -/
theorem C43_capsule (pieces : List Bytes) (fin : Bool) (hne : pieces ≠ []) :
    Pump.feed capsuleDecoder (fun _ => 0) ⟨Reader.new, 0⟩ pieces fin =
      Spec.read Spec.capsule pieces.flatten fin :=
  feed_read capsule_agrees pieces fin hne

/-- C43, as chunking independence alone: two divisions of the same bytes give the
same frames, payload and outcome. -/
theorem C43_chunking (prio : Bytes → Except Err Priority) (ps qs : List Bytes) (fin : Bool)
    (hp : ps ≠ []) (hq : qs ≠ []) (h : ps.flatten = qs.flatten) :
    Pump.feed (hDecoder prio) hPayload ⟨Reader.new, 0⟩ ps fin =
      Pump.feed (hDecoder prio) hPayload ⟨Reader.new, 0⟩ qs fin := by
  rw [C43_http3 prio ps fin hp, C43_http3 prio qs fin hq, h]

/-- C43: a request stream at a server, whose first frame type was read by the
stream type reader (`first`, not a reserved one: final_stream_type refuses
those), goes on as if the reader had read the type itself. -/
theorem C43_first_frame_type (prio : Bytes → Except Err Priority) (first : Nat) (head : Bytes)
    (pieces : List Bytes) (fin : Bool) (hne : pieces ≠ []) (hok : hTypeAllowed first = .ok ())
    (hhead : ∀ rest, decodeVarint (head ++ rest) = some (first, rest)) :
    Pump.feed (hDecoder prio) hPayload ⟨Reader.newWithType first, 0⟩ pieces fin =
      Spec.read (Spec.http3 prio) (head ++ pieces.flatten) fin := by
  have hnr : ∀ _ : Spec.http3 prio first = .reserved, False := by
    intro h
    have := http3_agrees prio first
    rw [h] at this
    have h2 : hTypeAllowed first = .error .httpFrameUnexpected := this
    rw [h2] at hok; cases hok
  have hh : head ≠ [] := by
    intro h
    have := hhead []
    rw [h, List.append_nil, C02_decode_nil] at this
    cases this
  have hvp : VP (Spec.http3 prio) ⟨Reader.newWithType first, 0⟩ := fun _ => ⟨vu_new, hnr⟩
  rw [feed_eq (http3_agrees prio) pieces _ fin hvp hne, read_ne _ _ _ (by simp [hh]), hhead]
  simp only [from', Reader.newWithType, gt_iff_lt, Nat.lt_irrefl, if_false, uintRest, afterType]
  cases hk : Spec.http3 prio first <;> first | exact absurd hk (fun x => hnr x) | rfl

/-- A HEADERS frame, a frame of an unknown type, a DATA frame with two bytes and
the end, in pieces that cut through all of them. -/
example :
    Pump.feed (hDecoder (fun _ => .error .httpFrame)) hPayload ⟨Reader.new, 0⟩
        [[0x01, 0x02, 0xaa], [0xbb, 0x40], [0x21, 0x01, 0xff, 0x00, 0x02, 0x07], [], [0x08], []] true =
      ([.frame (.headers [0xaa, 0xbb]), .frame (.data 2), .byte 7, .byte 8], .finished) := by
  rw [C43_http3 _ _ _ (by decide)]; decide +kernel

/-- The end in the middle of a frame, a reserved type and an oversized frame. -/
example (prio : Bytes → Except Err Priority) :
    Pump.feed (hDecoder prio) hPayload ⟨Reader.new, 0⟩ [[0x00, 0x02], [0x07]] true =
      ([.frame (.data 2), .byte 7], .failed .httpFrame) ∧
    Pump.feed (hDecoder prio) hPayload ⟨Reader.new, 0⟩ [[0x06]] false =
      ([], .failed .httpFrameUnexpected) ∧
    Pump.feed (hDecoder prio) hPayload ⟨Reader.new, 0⟩ [[0x07], [0x09]] false =
      ([], .failed .httpExcessiveLoad) := by
  refine ⟨?_, ?_, ?_⟩ <;> rw [C43_http3 _ _ _ (by decide)] <;> rfl

example : hTypeAllowed 1 = .ok () ∧ ∀ rest, decodeVarint ([0x01] ++ rest) = some (1, rest) :=
  ⟨by decide, fun rest => by rw [List.singleton_append, decodeVarint_cons]; rfl⟩

example : Pump.feed capsuleDecoder (fun _ => 0) ⟨Reader.new, 0⟩ [[0x00], [0x01, 0x05], [0x21]] false =
    ([.frame [5]], .more) := by
  rw [C43_capsule _ _ (by decide)]; decide +kernel

example : Pump.feed (wtDecoder (fun _ => true)) (fun _ => 0) ⟨Reader.new, 0⟩
    [[0x68, 0x43, 5, 0, 0], [0, 1, 0x61]] true = ([.frame ⟨1, [0x61]⟩], .finished) := by
  rw [C43_webtransport _ _ _ (by decide)]; decide +kernel

end Neqo.H3
