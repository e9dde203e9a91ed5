import Verif.Streams.Model

/-! Receive streams do not fail because of the number of streams. -/

namespace Neqo.Strs

open Neqo.Flow (RFc)
open Neqo.Recv (Rx)

def NoLim {α : Type} (x : Except Err α) : Prop := x ≠ .error .streamLimit

theorem NoLim.ok {α : Type} (a : α) : NoLim (.ok a : Except Err α) := fun h => by cases h

theorem NoLim.bind {α β : Type} {x : Except Err α} {f : α → Except Err β} (h : NoLim x) (hf : ∀ a, NoLim (f a)) :
    NoLim (x >>= f) := by
  cases x with
  | error e => intro hh; cases hh; exact h rfl
  | ok a => exact hf a

theorem NoLim.err {α β : Type} {x : Except Err α} {e : Err} (h : NoLim x) (hx : x = .error e) :
    NoLim (.error e : Except Err β) := by
  intro hh
  cases hh
  exact h hx

theorem setConsumed_nl (r : RFc) (n : Nat) : NoLim (r.setConsumed n) := by
  unfold RFc.setConsumed
  split
  · exact .ok _
  · split
    · exact fun hh => by cases hh
    · exact .ok _

theorem rconsume_nl (r : RFc) (n : Nat) : NoLim (r.consume n) := by
  unfold RFc.consume
  split
  · exact fun hh => by cases hh
  · exact .ok _

theorem should_nl (r : RFc) : NoLim r.shouldSendUpdate := by
  unfold RFc.shouldSendUpdate
  split
  · exact fun hh => by cases hh
  · exact .ok _

theorem addRetired_nl (r : RFc) (n : Nat) : NoLim (r.addRetired n) := by
  unfold RFc.addRetired
  split
  · dsimp only
    split
    · rename_i h
      exact NoLim.err (should_nl _) h
    · exact .ok _
  · exact fun hh => by cases hh

theorem retireData_nl (n : Nat) (a b : RFc) : NoLim (RecvS.retireData n a b) := by
  unfold RecvS.retireData
  split
  · exact (addRetired_nl _ _).bind (fun _ => (addRetired_nl _ _).bind (fun _ => .ok _))
  · exact .ok _

theorem consumeCore_nl (fc ses : RFc) (a b : Bool) (c : Nat) (f : Bool) : NoLim (RecvS.consumeCore fc ses a b c f) := by
  unfold RecvS.consumeCore
  split
  · refine (setConsumed_nl _ _).bind (fun _ => (rconsume_nl _ _).bind (fun _ => ?_))
    split
    · exact retireData_nl _ _ _
    · exact .ok _
  · exact fun hh => by cases hh

theorem consumeData_nl (st : RecvS.State) (ses : RFc) (c : Nat) (f : Bool) : NoLim (st.consumeData ses c f) := by
  unfold RecvS.State.consumeData
  cases st <;> first
    | exact (consumeCore_nl _ _ _ _ _ _).bind (fun _ => .ok _)
    | exact .ok _

theorem insertRange_nl (s : Rx) (a : Nat) (d : Codec.Bytes) : NoLim (s.insertRange a d) := by
  unfold Recv.Rx.insertRange Recv.Rx.checkGapLimit
  dsimp only
  split
  · exact fun hh => by cases hh
  · exact .ok _

theorem addRange_nl (s : Rx) (a b : Nat) (d : Codec.Bytes) (e : Option (Nat × Nat)) : NoLim (s.addRange a b d e) := by
  unfold Recv.Rx.addRange
  dsimp only
  split
  · exact .ok _
  · cases e with
    | none => exact insertRange_nl _ _ _
    | some x => exact .ok _

theorem inbound_nl (s : Rx) (a : Nat) (d : Codec.Bytes) : NoLim (s.inboundFrame a d) := by
  unfold Recv.Rx.inboundFrame
  dsimp only
  repeat' (first
    | exact .ok _
    | exact insertRange_nl _ _ _
    | exact addRange_nl _ _ _ _ _
    | split)

theorem deliver_nl (st : RecvS.State) (fin : Bool) (off : Nat) (d : Codec.Bytes) : NoLim (st.deliver fin off d) := by
  unfold RecvS.State.deliver
  cases st with
  | recv fc buf =>
    refine (inbound_nl _ _ _).bind (fun _ => ?_)
    split
    · split <;> exact .ok _
    · exact .ok _
  | sizeKnown fc buf =>
    refine (inbound_nl _ _ _).bind (fun _ => ?_)
    split <;> exact .ok _
  | sizeKnownAt fc buf e fs rel =>
    dsimp only
    split
    · exact (inbound_nl _ _ _).bind (fun _ => .ok _)
    · exact .ok _
  | _ => exact .ok _

theorem finishReset_nl (st : RecvS.State) (ses : RFc) (a b c d : Nat) : NoLim (st.finishReset ses a b c d) := by
  unfold RecvS.State.finishReset
  cases st with
  | sizeKnownAt | abortReading | waitForReset =>
    dsimp only
    split
    · exact fun hh => by cases hh
    · exact (retireData_nl _ _ _).bind (fun _ => .ok _)
  | _ => exact .ok _

theorem completeIfDrained_nl (st : RecvS.State) (ses : RFc) : NoLim (st.completeIfDrained ses) := by
  unfold RecvS.State.completeIfDrained
  cases st with
  | sizeKnownAt =>
    dsimp only
    split
    · exact .ok _
    · exact finishReset_nl _ _ _ _ _ _
  | _ => exact .ok _

theorem resetMatch_nl (st : RecvS.State) (ses : RFc) (a b c : Nat) : NoLim (st.resetMatch ses a b c) := by
  unfold RecvS.State.resetMatch
  cases st with
  | recv | sizeKnown => exact (retireData_nl _ _ _).bind (fun _ => completeIfDrained_nl _ _)
  | sizeKnownAt =>
    dsimp only
    split
    · exact fun hh => by cases hh
    · split
      · exact (retireData_nl _ _ _).bind (fun _ => completeIfDrained_nl _ _)
      · exact .ok _
  | abortReading => exact finishReset_nl _ _ _ _ _ _
  | waitForReset => exact finishReset_nl _ _ _ _ _ _
  | _ => exact .ok _

theorem frame_nl (st : RecvS.State) (ses : RFc) (fin : Bool) (off : Nat) (d : Codec.Bytes) :
    NoLim (recvStep st ses (.frame fin off d)) := by
  have h : NoLim (st.inboundFrame ses fin off d) :=
    (consumeData_nl _ _ _ _).bind (fun _ => (deliver_nl _ _ _ _).bind (fun _ => .ok _))
  unfold recvStep
  dsimp only
  split
  · rename_i hh; exact h.err hh
  · exact .ok _

theorem reset_nl (st : RecvS.State) (ses : RFc) (a b c : Nat) : NoLim (recvStep st ses (.reset a b c)) := by
  have h : NoLim (st.reset ses a b c) := by
    unfold RecvS.State.reset
    split
    · exact fun hh => by cases hh
    · exact (consumeData_nl _ _ _ _).bind (fun _ => resetMatch_nl _ _ _ _ _)
  unfold recvStep
  dsimp only
  split
  · rename_i hh; exact h.err hh
  · exact .ok _

theorem blocked_nl (st : RecvS.State) (ses : RFc) : NoLim (recvStep st ses .peerBlocked) := .ok _

end Neqo.Strs
