import Verif.Streams.Spec
import Verif.Sched.Runs

/-! The send streams modelled in `Verif.SendStream` are as `KindOk` asks. -/

namespace Neqo.Strs

open Neqo.Flow (SFc RFc)
open Neqo.Send (Stream Prio)

theorem onTx_ended {st st' : Send.State} {f : Send.Tx → Except Err Send.Tx} (h : st.onTx f = .ok st') (s : Stream) :
    ({ s with state := st' } : Stream).isEnded = ({ s with state := st } : Stream).isEnded := by
  unfold Send.State.onTx at h
  cases st <;> dsimp only at h
  all_goals first
    | (cases h; rfl)
    | (split at h
       · cases h; rfl
       · cases h)

theorem blockedIfNeeded_ended (s : Stream) (conn : SFc) (n : Nat) : (s.blockedIfNeeded conn n).1.isEnded = s.isEnded := by
  unfold Stream.blockedIfNeeded Stream.isEnded
  cases h : s.state <;> simp only [h]

theorem finSent_ended (s : Stream) (fin : Bool) : ({ s with state := s.state.finSent fin } : Stream).isEnded = s.isEnded := by
  unfold Stream.isEnded Send.State.finSent
  cases h : s.state <;> rfl

theorem markSent_ended {s s' : Stream} {conn conn' : SFc} {off len : Nat} {fin : Bool}
    (h : s.markSent conn off len fin = .ok (s', conn')) : s'.isEnded = s.isEnded := by
  unfold Stream.markSent at h
  split at h
  · cases h
  · rename_i st hst
    cases h
    rw [finSent_ended, blockedIfNeeded_ended]
    exact onTx_ended hst { s with bytesSent := max s.bytesSent (off + len) }

theorem writeData_ended {s s' : Stream} {conn conn' : SFc} {fo : Option Nat} {rem off : Nat} {d : Codec.Bytes} {w : Send.Wrote}
    (h : s.writeData conn fo rem off d = .ok (s', conn', w)) : s'.isEnded = s.isEnded := by
  unfold Stream.writeData at h
  split at h
  · cases h
  · split at h
    · cases h; rfl
    · split at h
      · cases h
      · dsimp only at h
        split at h
        · cases h; rfl
        · split at h
          · cases h
          · split at h
            · cases h
            · rename_i hm
              cases h
              exact markSent_ended hm

theorem nextBytes_ended {s s' : Stream} {split : Nat} {r : Bool} {o : Option (Nat × Codec.Bytes)}
    (h : s.nextBytes split r = .ok (s', o)) : s'.isEnded = s.isEnded := by
  unfold Stream.nextBytes at h
  unfold Stream.isEnded
  cases hs : s.state <;> rw [hs] at h <;> dsimp only at h
  all_goals first
    | (split at h
       · cases h
       · cases h; rfl)
    | (cases h; rw [hs])

theorem writeStream_ended {s s' : Stream} {conn conn' : SFc} {p : Prio} {rem split : Nat} {w : Send.Wrote}
    (h : s.writeStream conn p rem split = .ok (s', conn', w)) : s'.isEnded = s.isEnded := by
  unfold Stream.writeStream at h
  split at h
  · cases h; rfl
  · split at h
    · cases h
    · rename_i hn
      cases h
      exact nextBytes_ended hn
    · rename_i hn
      exact (writeData_ended h).trans (nextBytes_ended hn)

theorem writeReset_ended {s s' : Stream} {p : Prio} {rem : Nat} {w : Send.Wrote} {b : Bool}
    (h : s.writeReset p rem = .ok (s', w, b)) : s'.isEnded = s.isEnded := by
  unfold Stream.writeReset at h
  unfold Stream.isEnded
  cases hs : s.state <;> rw [hs] at h <;> dsimp only at h
  all_goals first
    | (cases h; rw [hs])
    | (split at h
       · cases h; rw [hs]
       · split at h
         · cases h
         · split at h
           · cases h; rfl
           · cases h; rw [hs])

theorem writeBlocked_ended {s s' : Stream} {p : Prio} {rem : Nat} {w : Send.Wrote}
    (h : s.writeBlocked p rem = .ok (s', w)) : s'.isEnded = s.isEnded := by
  unfold Stream.writeBlocked at h
  split at h
  · unfold Stream.isEnded
    cases hs : s.state <;> rw [hs] at h <;> dsimp only at h
    all_goals first
      | (cases h; rw [hs])
      | (split at h
         · cases h
         · cases h; rfl)
  · cases h; rfl

theorem writeFrames_ended {s s' : Stream} {conn conn' : SFc} {p : Prio} {rem split : Nat} {w : Send.Wrote}
    (h : s.writeFrames conn p rem split = .ok (s', conn', w)) : s'.isEnded = s.isEnded := by
  unfold Stream.writeFrames at h
  split at h
  · cases h
  · rename_i h1
    cases h
    exact writeReset_ended h1
  · rename_i h1
    split at h
    · cases h
    · rename_i h2
      split at h
      · cases h
        exact (writeBlocked_ended h2).trans (writeReset_ended h1)
      · split at h
        · cases h
        · rename_i h3
          cases h
          exact (writeStream_ended h3).trans ((writeBlocked_ended h2).trans (writeReset_ended h1))

theorem sendWriter_ended (p : Prio) (split : Nat) (s : Stream) : (Sched.sendWriter p split).ended s = s.isEnded := by
  unfold Sched.sendWriter Stream.isEnded
  dsimp only
  cases s.state <;> rfl

theorem sendWriter_ends (p : Prio) (split : Nat) : Sched.WriterEnds (Sched.sendWriter p split) := by
  intro conn s rem
  rw [sendWriter_ended, sendWriter_ended]
  unfold Sched.sendWriter
  dsimp only
  split
  · rfl
  · rename_i h
    exact writeFrames_ended h

/-- The send streams of `Verif.SendStream.Model` (send_stream.rs:745-772, 1424-1432, 1586-1713).  The credit of the
connection only matters for the events of a stream here, and is left out. -/
def sendKind (p : Prio) (split : Nat) : Kind Stream SFc where
  w := Sched.sendWriter p split
  new id l := Stream.new id l { limit := 0 }
  stop err s := s.dropCommitment.reset err
  setMax l s := match s.setMaxStreamData { limit := 0 } l with
    | .ok s' => s'
    | .error _ => s

theorem maybeWritable_ended {s s' : Stream} {conn : SFc} {a b : Nat} (h : s.maybeWritable conn a b = .ok s') :
    s'.isEnded = s.isEnded := by
  unfold Stream.maybeWritable at h
  split at h
  · cases h
  · split at h <;> (cases h; rfl)

theorem setMax_ended {s s' : Stream} {conn : SFc} {l : Nat} (h : s.setMaxStreamData conn l = .ok s') :
    s'.isEnded = s.isEnded := by
  unfold Stream.setMaxStreamData at h
  dsimp only at h
  split at h
  · rename_i fc hs
    split at h
    · rw [maybeWritable_ended h]
      unfold Stream.isEnded
      rw [hs]
    · cases h
      unfold Stream.isEnded
      rw [hs]
  · rename_i fc tx c hs
    split at h
    · rw [maybeWritable_ended h]
      unfold Stream.isEnded
      rw [hs]
    · cases h
      unfold Stream.isEnded
      rw [hs]
  · cases h; rfl

theorem sendKind_ok (p : Prio) (split : Nat) : KindOk (sendKind p split) where
  writer := Sched.sendWriter_ok p split
  ends := sendWriter_ends p split
  new id l := by
    show (Sched.sendWriter p split).ended (Stream.new id l _) = false
    rw [sendWriter_ended]
    unfold Stream.new
    dsimp only
    split <;> rfl
  setMax l st := by
    show (Sched.sendWriter p split).ended ((sendKind p split).setMax l st) = (Sched.sendWriter p split).ended st
    rw [sendWriter_ended, sendWriter_ended]
    unfold sendKind
    dsimp only
    split
    · rename_i h
      exact setMax_ended h
    · rfl

end Neqo.Strs
