import Verif.Frames.Props

/-!
# Closing a connection: C123

What is sent when a connection is closed, in the packets of each packet number space. The bytes of
frames are described in `Verif.Frames.Spec`, and which packets may carry them in `Frame.AllowedIn`.

The writer of ACK frames is a parameter: any function from the space that it is given to the bytes that
it writes, which are none if there is nothing to acknowledge.
-/
namespace Neqo.Close
open Neqo.Frm Neqo.Codec

/-! ## The model -/

/-- `PacketNumberSpace` (tracking.rs:33-40). -/
inductive Space where
  | initial
  | handshake
  | application
deriving DecidableEq, Repr

/-- `CloseReason` (lib.rs:264-267): a transport error, as its code (lib.rs:212-241), or the code of the
application. -/
inductive Reason where
  | transport (code : Nat)
  | application (code : Nat)
deriving DecidableEq, Repr

/-- `ClosingFrame` (connection/state.rs:79-84), without the path. -/
structure Closing where
  error : Reason
  ftype : Nat
  phrase : Bytes
deriving DecidableEq, Repr

/-- The code of `Error::Application`, `ERROR_APPLICATION_CLOSE` (lib.rs:92, 227). -/
def applicationError : Nat := 12

/-- `ClosingFrame::sanitize` (connection/state.rs:106-119). -/
def Closing.sanitize (c : Closing) : Option Closing :=
  match c.error with
  | .application _ => some { error := .transport applicationError, ftype := 0, phrase := [] }
  | .transport _ => none

/-- `ClosingFrame::write_frame` (connection/state.rs:126-153). -/
def Closing.write (c : Closing) (rem : Nat) : Except Err (Option Bytes) :=
  match c.error with
  | .transport code => writeClose rem false code c.ftype c.phrase
  | .application code => writeClose rem true code c.ftype c.phrase

/-- The frame that is written in a space (connection/mod.rs:2658-2664). -/
def Closing.inSpace (c : Closing) (s : Space) : Closing :=
  if s = .application then c else c.sanitize.getD c

/-- `write_closing_frames` (connection/mod.rs:2635-2667), with `rem` bytes remaining: the bytes of the ACK
frame and those of the CONNECTION_CLOSE frame. While the ACK frame is written, the limit of the packet
is lowered by `MIN_LENGTH`. -/
def writeClosing (ack : Nat → Bytes) (c : Closing) (s : Space) (rem : Nat) : Except Err (Bytes × Option Bytes) := do
  let a := if rem > closeMinLen + usefulAckLen then ack (rem - closeMinLen) else []
  let f ← (c.inSpace s).write (rem - a.length)
  return (a, f)

/-! ## The specification -/

/-- A writer of ACK frames keeps to the space that it is given. -/
def Fits (ack : Nat → Bytes) : Prop := ∀ n, (ack n).length ≤ n

/-- The values can be encoded. -/
def Closing.Ok (c : Closing) : Prop :=
  (match c.error with | .transport e => e < 2 ^ 62 | .application e => e < 2 ^ 62) ∧ c.ftype < 2 ^ 62 ∧
    c.phrase.length < 2 ^ 62

/-- The packets in which what is written for a space is sent, once there are 1-RTT keys. -/
def Space.packet : Space → PType
  | .initial => .initial
  | .handshake => .handshake
  | .application => .short

/-! ## C123 -/

theorem ack_len {ack : Nat → Bytes} (h : Fits ack) {rem : Nat} :
    (if rem > closeMinLen + usefulAckLen then ack (rem - closeMinLen) else []).length ≤ rem - closeMinLen := by
  split
  · exact h _
  · simp

theorem writeClosing_ok {ack : Nat → Bytes} {c : Closing} {s : Space} {rem : Nat} {a : Bytes} {o : Option Bytes}
    (h : writeClosing ack c s rem = .ok (a, o)) :
    a = (if rem > closeMinLen + usefulAckLen then ack (rem - closeMinLen) else []) ∧
      (c.inSpace s).write (rem - a.length) = .ok o := by
  unfold writeClosing at h
  simp only [bind, Except.bind, pure, Except.pure] at h
  split at h
  · cases h
  · rename_i f hf
    cases h
    exact ⟨rfl, hf⟩

theorem inSpace_hidden {s : Space} (hs : s ≠ .application) {c : Closing} {e : Nat} (h : c.error = .application e) :
    c.inSpace s = { error := .transport applicationError, ftype := 0, phrase := [] } := by
  unfold Closing.inSpace Closing.sanitize
  rw [if_neg hs, h]
  rfl

theorem inSpace_kept {s : Space} {c : Closing} (h : s = .application ∨ ∃ e, c.error = .transport e) :
    c.inSpace s = c := by
  unfold Closing.inSpace
  split
  · rfl
  · rename_i hs
    obtain ⟨e, he⟩ := h.resolve_left hs
    unfold Closing.sanitize
    rw [he]
    rfl

/-- What an application gives when it closes a connection does not show in Initial and Handshake packets:
whatever the code and the reason, the same bytes are written. -/
theorem C123_hidden {ack : Nat → Bytes} {c₁ c₂ : Closing} {e₁ e₂ : Nat} {s : Space} {rem : Nat}
    (h1 : c₁.error = .application e₁) (h2 : c₂.error = .application e₂) (hs : s ≠ .application) :
    writeClosing ack c₁ s rem = writeClosing ack c₂ s rem := by
  unfold writeClosing
  rw [inSpace_hidden hs h1, inSpace_hidden hs h2]

/-- In Initial and Handshake packets, the close of an application is a CONNECTION_CLOSE frame with the
transport error APPLICATION_ERROR (12), no frame type and no reason. It fits. -/
theorem C123_replaced {ack : Nat → Bytes} (ha : Fits ack) {c : Closing} {e : Nat} {s : Space} {rem : Nat}
    (h : c.error = .application e) (hs : s ≠ .application) (hr : closeMinLen ≤ rem) :
    ∃ a, writeClosing ack c s rem = .ok (a, some [0x1c, 12, 0, 0]) ∧ Wire (.connectionClose false 12 0 []) [0x1c, 12, 0, 0] ∧
      a.length + 4 ≤ rem := by
  have hl := ack_len ha (rem := rem)
  have hc : closeMinLen = 27 := rfl
  have hw : ∀ n, closeMinLen ≤ n → writeClose n false 12 0 [] = .ok (some [0x1c, 12, 0, 0]) := by
    intro n hn
    unfold writeClose
    rw [if_neg (by omega)]
    simp only [List.take_nil, ite_self]
    rfl
  refine ⟨_, ?_, ?_, (by omega : (if rem > closeMinLen + usefulAckLen then ack (rem - closeMinLen) else []).length + 4 ≤ rem)⟩
  · unfold writeClosing
    rw [inSpace_hidden hs h]
    simp only [Closing.write, applicationError]
    rw [hw _ (by omega)]
    rfl
  · obtain ⟨w, k, m, n, t, g1, g2, -⟩ := close_bytes (rem := 27) (code := 12) (ftype := 0) (app := false) (reason := [])
      (by decide) (by decide) (by decide) (by decide)
    rw [hw 27 (by decide)] at g1
    cases g1
    rw [List.take_nil] at g2
    exact g2

/-- In 1-RTT packets, the code of the application is sent, with a beginning of the reason; a transport error
is sent so in the packets of every space. -/
theorem C123_kept {ack : Nat → Bytes} {c : Closing} {s : Space} {rem : Nat} {a w : Bytes} (hok : c.Ok)
    (hs : s = .application ∨ ∃ e, c.error = .transport e) (h : writeClosing ack c s rem = .ok (a, some w)) :
    ∃ k, Wire (match c.error with
      | .application e => .connectionClose true e 0 (c.phrase.take k)
      | .transport e => .connectionClose false e c.ftype (c.phrase.take k)) w := by
  have hw := (writeClosing_ok h).2
  rw [inSpace_kept hs] at hw
  obtain ⟨h1, h2, h3⟩ := hok
  unfold Closing.write at hw
  cases hc : c.error with
  | transport e =>
    rw [hc] at hw h1
    dsimp only at hw
    obtain ⟨o, g1, -, g3⟩ := C60_close_partial (rem := rem - a.length) (app := false) h1 h2 h3
    rw [g1] at hw
    cases hw
    obtain ⟨k, g4, -⟩ := g3 w rfl
    exact ⟨k, g4⟩
  | application e =>
    rw [hc] at hw h1
    dsimp only at hw
    obtain ⟨o, g1, -, g3⟩ := C60_close_partial (rem := rem - a.length) (app := true) h1 h2 h3
    rw [g1] at hw
    cases hw
    obtain ⟨k, g4, -⟩ := g3 w rfl
    exact ⟨k, g4⟩

/-- The reason is sent in full, and fits, if it has at most 200 bytes and 274 bytes remain after the ACK frame. -/
theorem C123_reason {ack : Nat → Bytes} {c : Closing} {s : Space} {rem : Nat} {a w : Bytes} (hok : c.Ok)
    (hs : s = .application ∨ ∃ e, c.error = .transport e) (h : writeClosing ack c s rem = .ok (a, some w))
    (hp : c.phrase.length ≤ 200) (hr : a.length + 274 ≤ rem) :
    Wire (match c.error with
      | .application e => .connectionClose true e 0 c.phrase
      | .transport e => .connectionClose false e c.ftype c.phrase) w ∧ a.length + w.length ≤ rem := by
  have hw := (writeClosing_ok h).2
  rw [inSpace_kept hs] at hw
  obtain ⟨h1, h2, h3⟩ := hok
  have hc27 : closeMinLen = 27 := rfl
  have key : ∀ (app : Bool) (e : Nat), e < 2 ^ 62 → writeClose (rem - a.length) app e c.ftype c.phrase = .ok (some w) →
      Wire (.connectionClose app e (if app then 0 else c.ftype) c.phrase) w ∧ a.length + w.length ≤ rem := by
    intro app e he hw
    obtain ⟨w', k, m, n, t, g1, g2, g3, g4, g5, g6, g7, g8⟩ := close_bytes (app := app) he h2 h3
      (show closeMinLen ≤ rem - a.length by omega)
    rw [g1] at hw
    cases hw
    have hm := varintLen_mono hp (by decide) g3 (show varintLen 200 = some 2 from rfl)
    rw [if_neg (by omega)] at g8
    rw [g8, List.take_length] at g2 g4 g7
    rw [g3] at g4
    cases g4
    exact ⟨g2, by omega⟩
  unfold Closing.write at hw
  cases hc : c.error with
  | transport e =>
    rw [hc] at hw h1
    exact key false e h1 hw
  | application e =>
    rw [hc] at hw h1
    exact key true e h1 hw

/-- An ACK frame never takes the place of the CONNECTION_CLOSE frame: that is written if there are 27 bytes, and
no values make it panic. -/
theorem C123_always {ack : Nat → Bytes} (ha : Fits ack) {c : Closing} {s : Space} {rem : Nat} (hok : c.Ok) :
    ∃ a o, writeClosing ack c s rem = .ok (a, o) ∧ (closeMinLen ≤ rem → o ≠ none) ∧
      (rem < closeMinLen → a = [] ∧ o = none) := by
  have hl := ack_len ha (rem := rem)
  obtain ⟨h1, h2, h3⟩ := hok
  have hc27 : closeMinLen = 27 := rfl
  generalize ha' : (if rem > closeMinLen + usefulAckLen then ack (rem - closeMinLen) else []) = a at hl
  have key : ∃ o, (c.inSpace s).write (rem - a.length) = .ok o ∧ (closeMinLen ≤ rem - a.length → o ≠ none) := by
    by_cases hk : s = .application ∨ ∃ e, c.error = .transport e
    · rw [inSpace_kept hk]
      unfold Closing.write
      cases hc : c.error with
      | transport e =>
        rw [hc] at h1
        obtain ⟨o, g1, g2, -⟩ := C60_close_partial (rem := rem - a.length) (app := false) h1 h2 h3
        exact ⟨o, g1, g2⟩
      | application e =>
        rw [hc] at h1
        obtain ⟨o, g1, g2, -⟩ := C60_close_partial (rem := rem - a.length) (app := true) h1 h2 h3
        exact ⟨o, g1, g2⟩
    · have hs : s ≠ .application := fun h => hk (Or.inl h)
      cases hc : c.error with
      | transport e => exact absurd (Or.inr ⟨e, hc⟩) hk
      | application e =>
        rw [inSpace_hidden hs hc]
        obtain ⟨o, g1, g2, -⟩ := C60_close_partial (rem := rem - a.length) (code := applicationError) (ftype := 0)
          (app := false) (reason := []) (by decide) (by decide) (by decide)
        exact ⟨o, g1, g2⟩
  obtain ⟨o, k1, k2⟩ := key
  refine ⟨a, o, ?_, (fun h => k2 (by omega)), ?_⟩
  · unfold writeClosing
    simp only [ha', k1, bind, Except.bind, pure, Except.pure]
  · intro h
    rw [if_neg (by omega)] at ha'
    subst ha'
    refine ⟨rfl, ?_⟩
    have hnone : ∀ x : Closing, x.write rem = .ok none := by
      intro x
      unfold Closing.write writeClose
      cases x.error <;> simp only <;> rw [if_pos (by omega)]
    rw [List.length_nil, Nat.sub_zero, hnone] at k1
    cases k1
    rfl

/-- The frame that is written may be in the packet that it is written in. -/
theorem C123_allowed {ack : Nat → Bytes} (ha : Fits ack) {c : Closing} {s : Space} {rem : Nat} {a w : Bytes} (hok : c.Ok)
    (h : writeClosing ack c s rem = .ok (a, some w)) : ∃ f, Wire f w ∧ f.AllowedIn s.packet := by
  have hr : closeMinLen ≤ rem := by
    obtain ⟨a', o, g1, -, g2⟩ := C123_always ha (s := s) (rem := rem) hok
    rw [g1] at h
    cases h
    by_cases hr : closeMinLen ≤ rem
    · exact hr
    · exact absurd (g2 (by omega)).2 (by simp)
  by_cases hk : s = .application ∨ ∃ e, c.error = .transport e
  · obtain ⟨k, hw⟩ := C123_kept hok hk h
    refine ⟨_, hw, ?_⟩
    cases hc : c.error with
    | transport e => exact fun h => by cases h
    | application e =>
      rcases hk with rfl | ⟨e', he⟩
      · exact fun _ => Or.inr rfl
      · rw [hc] at he; cases he
  · cases hc : c.error with
    | transport e => exact absurd (Or.inr ⟨e, hc⟩) hk
    | application e =>
      obtain ⟨a', g1, g2, -⟩ := C123_replaced ha hc (fun h => hk (Or.inl h)) hr
      rw [g1] at h
      cases h
      exact ⟨_, g2, fun h => by cases h⟩

/-- An ACK frame that takes all that it is given leaves a reason that does not fit: the frame is then written
beyond the space left, as in `C60_close_does_not_fit`. -/
theorem C123_ack_squeezes {c : Closing} {rem : Nat} (hok : c.Ok) (hr : closeMinLen + usefulAckLen < rem)
    (hl : closeMinLen ≤ c.phrase.length) :
    ∃ ack a w, Fits ack ∧ writeClosing ack c .application rem = .ok (a, some w) ∧ rem < a.length + w.length := by
  obtain ⟨h1, h2, h3⟩ := hok
  have hc27 : closeMinLen = 27 := rfl
  have key : ∃ w, c.write closeMinLen = .ok (some w) ∧ closeMinLen < w.length := by
    unfold Closing.write
    cases hc : c.error with
    | transport e =>
      rw [hc] at h1
      exact C60_close_does_not_fit h1 h2 h3 (Nat.le_refl _) (by decide) hl
    | application e =>
      rw [hc] at h1
      exact C60_close_does_not_fit h1 h2 h3 (Nat.le_refl _) (by decide) hl
  obtain ⟨w, k1, k2⟩ := key
  refine ⟨fun n => List.replicate n 0, List.replicate (rem - closeMinLen) 0, w, (fun n => by simp), ?_, ?_⟩
  · unfold writeClosing
    rw [if_pos hr, inSpace_kept (Or.inl rfl)]
    dsimp only
    rw [List.length_replicate, show rem - (rem - closeMinLen) = closeMinLen by omega]
    simp only [k1, bind, Except.bind, pure, Except.pure]
  · rw [List.length_replicate]
    omega

/-! ### Examples -/

def bye : Closing := { error := .application 7, ftype := 0, phrase := [0x62, 0x79, 0x65] }

example : bye.Ok := ⟨show 7 < 2 ^ 62 by decide, by decide, by decide⟩
example : Fits (fun n => if n < 5 then [] else [2, 0, 0, 0, 0]) := by
  intro n; dsimp only; split <;> simp; omega
example : writeClosing (fun _ => [2, 0, 0, 0, 0]) bye .initial 1000 = .ok ([2, 0, 0, 0, 0], some [0x1c, 12, 0, 0]) := by
  decide +kernel
example : writeClosing (fun _ => [2, 0, 0, 0, 0]) bye .application 1000 =
    .ok ([2, 0, 0, 0, 0], some [0x1d, 7, 3, 0x62, 0x79, 0x65]) := by decide +kernel
example : writeClosing (fun _ => [2, 0, 0, 0, 0]) bye .application 77 =
    .ok ([], some [0x1d, 7, 3, 0x62, 0x79, 0x65]) := by decide +kernel
example : writeClosing (fun _ => []) { bye with error := .transport 10, ftype := 8 } .handshake 1000 =
    .ok ([], some [0x1c, 10, 8, 3, 0x62, 0x79, 0x65]) := by decide +kernel

end Neqo.Close
