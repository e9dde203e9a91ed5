import Verif.Streams.Fresh
import Verif.Streams.Real
import Verif.Streams.NoLimit

/-!
C37 and C59: numbering and limits of streams, and what is left of early data that was rejected.
-/

namespace Neqo.Strs

open Neqo.Flow (SFc RFc)
open Neqo.Sched (Writer Sched imFind)

variable {σ γ : Type}

/-! ### A connection for examples -/

/-- Our limits. -/
def exCfg : Cfg := { maxData := 1000, maxBidi := 2, maxUni := 2, bidiLocal := 100, bidiRemote := 100, uni := 100 }

/-- The peer's limits. -/
def exPeer : Peer := { maxData := 500, maxBidi := 3, maxUni := 2, bidiLocal := 100, bidiRemote := 100, uni := 100 }

theorem exCfg_ok : exCfg.Ok :=
  ⟨by decide, by decide, by decide, by decide, fun t => by cases t <;> decide⟩

/-- A step that is allowed now. -/
def ready (s : State σ) (h : History σ γ) : Op σ γ → Bool
  | .frame (.stopSending ..) => false
  | .frame _ => s.peer.isSome
  | .create _ => true
  | .recv _ (.read _) => true
  | .recv _ (.stopSending _) => true
  | .recv _ .stopSendingAcked => true
  | .recv _ (.write ..) => true
  | .send (.acked ..) => true
  | .send (.write ..) => true
  | .spend n => decide (s.conn.used + n ≤ s.conn.limit)
  | .writeMaxData .. => true
  | .writeMaxStreams .. => true
  | .writeBlocked .. => true
  | .blockedLost .. => true
  | .cleanup => true
  | .limits _ => true
  | .rejected => decide (s.role = .client) && h.all (fun e => match e.1 with | .frame _ => false | _ => true)
  | _ => false

theorem ready_allowed {K : Kind σ γ} {s : State σ} {h : History σ γ} {op : Op σ γ} (hr : ready s h op = true) :
    op.Allowed s h ∧ op.Noted K s := by
  cases op with
  | frame f => cases f <;> first | exact ⟨hr, trivial⟩ | cases hr
  | recv id op => cases op <;> first | exact ⟨trivial, trivial⟩ | cases hr
  | send op => cases op <;> first | exact ⟨trivial, trivial⟩ | cases hr
  | spend n =>
    have hr : decide (s.conn.used + n ≤ s.conn.limit) = true := hr
    exact ⟨(of_decide_eq_true hr : s.conn.used + n ≤ s.conn.limit), trivial⟩
  | rejected =>
    obtain ⟨h1, h2⟩ := Bool.and_eq_true_iff.mp hr
    refine ⟨⟨of_decide_eq_true h1, fun e he f hf => ?_⟩, trivial⟩
    have := List.all_eq_true.mp h2 e he
    rw [hf] at this
    cases this
  | _ => first | exact ⟨trivial, trivial⟩ | cases hr

/-- Steps one after the other. -/
def execs (K : Kind σ γ) (s : State σ) (h : History σ γ) : List (Op σ γ) → Option (State σ × History σ γ)
  | [] => some (s, h)
  | op :: l =>
    if ready s h op then
      match exec K s op with
      | .ok (s, os) => execs K s ((op, os) :: h) l
      | .error _ => none
    else none

theorem execs_reach {K : Kind σ γ} {q : Prop} {role : Role} {cfg : Cfg} {l : List (Op σ γ)} {s s' : State σ}
    {h h' : History σ γ} (hr : Reach K q role cfg s h) (he : execs K s h l = some (s', h')) : Reach K q role cfg s' h' := by
  induction l generalizing s h with
  | nil => cases he; exact hr
  | cons op l ih =>
    unfold execs at he
    split at he
    · rename_i hok
      split at he
      · rename_i s1 os h1
        obtain ⟨a1, a2⟩ := ready_allowed (K := K) hok
        exact ih (.step op hr a1 (fun _ => a2) h1) he
      · cases he
    · cases he

/-- The send streams of the examples. -/
abbrev exK : Kind Send.Stream SFc := sendKind 0 0

theorem exK_ok : KindOk exK := sendKind_ok 0 0

/-- A run from the start of a connection. -/
def run (role : Role) (l : List (Op Send.Stream SFc)) : Option (State Send.Stream × History Send.Stream SFc) :=
  execs exK (.new role exCfg) [] l

/-- What holds at the end of a run holds of a reachable state. -/
theorem of_run {q : Prop} {role : Role} {l : List (Op Send.Stream SFc)}
    {P : State Send.Stream → History Send.Stream SFc → Bool} (h : (run role l).any (fun r => P r.1 r.2) = true) :
    ∃ s h, Reach exK q role exCfg s h ∧ P s h = true := by
  cases hr : run role l with
  | none => rw [hr] at h; cases h
  | some r => rw [hr] at h; exact ⟨r.1, r.2, execs_reach .init hr, h⟩

/-! ### C37: own streams -/

theorem link_created {role : Role} {cfg : Cfg} {s : State σ} {h : History σ γ} {n : SType → Nat}
    (hl : Link role cfg s h n) (t : SType) : (created t h).length = (s.loc t).used := by
  rw [hl.created, firstIds_length]

theorem link_opened {role : Role} {cfg : Cfg} {s : State σ} {h : History σ γ} {n : SType → Nat}
    (hl : Link role cfg s h n) (t : SType) : (opened t h).length = n t := by
  rw [hl.opened, firstIds_length]

/-- The streams that the application created are the first ones of their type, in order and without gaps,
and not more than the peer allows. -/
theorem C37_own_streams {K : Kind σ γ} (hK : KindOk K) {q : Prop} {role : Role} {cfg : Cfg} (hc : cfg.Ok) {s : State σ}
    {h : History σ γ} (hr : Reach K q role cfg s h) (t : SType) :
    ∃ n, created t h = firstIds t role n ∧ n ≤ granted t h := by
  obtain ⟨n, hl⟩ := reach_link hK hc hr
  refine ⟨(s.loc t).used, hl.created t, ?_⟩
  rw [← hl.granted]
  exact hl.inv.loc t

/-- Creating a stream succeeds exactly when the peer allows another one, and gives the next ID. -/
theorem C37_create {K : Kind σ γ} (hK : KindOk K) {q : Prop} {role : Role} {cfg : Cfg} (hc : cfg.Ok) {s : State σ}
    {h : History σ γ} (hr : Reach K q role cfg s h) (t : SType) :
    ∃ s', exec K s (.create t) = .ok (s', if (created t h).length < granted t h
      then [.created t (nth t role (created t h).length)] else [.refused t]) := by
  obtain ⟨n, hl⟩ := reach_link hK hc hr
  rw [link_created hl, ← hl.granted, ← hl.role]
  show ∃ s', create K s t = _
  unfold create takeLocal SFc.available
  by_cases hav : (s.loc t).used < (s.loc t).limit
  · rw [if_pos (by omega), if_pos hav]
    unfold SFc.consume
    rw [if_pos (by omega)]
    dsimp only
    obtain ⟨p, hp⟩ := Option.isSome_iff_exists.mp (hl.inv.peer t (by omega))
    rw [hp]
    have hid : 4 * (s.loc t).used + t.code + s.role.bit = nth t s.role (s.loc t).used := by
      unfold nth
      rw [← first_eq]
      unfold first
      omega
    rw [hid]
    cases t <;> exact ⟨_, rfl⟩
  · rw [if_neg (by omega), if_neg hav]
    exact ⟨_, rfl⟩

example : ∃ s h, Reach exK True .client exCfg s h ∧
    (decide (created .bidi h = [0, 4, 8]) && decide (created .uni h = [2]) && decide (granted .bidi h = 3)) = true :=
  of_run (l := [.create .bidi, .limits exPeer, .create .bidi, .create .uni, .create .bidi, .create .bidi, .create .bidi])
    (by decide +kernel)

/-! ### C37: streams of the peer -/

/-- The stream that a frame is about, and whether it is about what we receive on it. -/
def Frame.target : Frame → Option (Nat × Bool)
  | .resetStream id _ _ => some (id, true)
  | .resetStreamAt id _ _ _ => some (id, true)
  | .stopSending id _ => some (id, false)
  | .stream _ id _ _ => some (id, true)
  | .maxStreamData id _ => some (id, false)
  | .streamDataBlocked id => some (id, true)
  | _ => none

/-- The streams of the peer that the application is told of are the first ones of their type, each once, and not
more than the peer was told it may open. -/
theorem C37_peer_streams {K : Kind σ γ} (hK : KindOk K) {q : Prop} {role : Role} {cfg : Cfg} (hc : cfg.Ok) {s : State σ}
    {h : History σ γ} (hr : Reach K q role cfg s h) (t : SType) :
    ∃ n, opened t h = firstIds t role.other n ∧ n ≤ advertised cfg t h := by
  obtain ⟨n, hl⟩ := reach_link hK hc hr
  refine ⟨n t, hl.opened t, ?_⟩
  rw [← hl.advertised]
  exact hl.inv.allowed t

theorem frame_of_target (K : Kind σ γ) {f : Frame} {id : Nat} {b : Bool} (hf : f.target = some (id, b)) (s : State σ) :
    inputFrame K s f = .error .protocolViolation ∨
    (b = true ∧ ∃ op, (∀ st ses, NoLim (recvStep st ses op)) ∧ inputFrame K s f = frameRecv K s id op) ∨
    (b = false ∧ ∃ g, inputFrame K s f = frameSend K s id g) := by
  cases f <;> cases hf
  · exact Or.inr (Or.inl ⟨rfl, _, fun _ _ => reset_nl _ _ _ _ _, rfl⟩)
  · unfold inputFrame
    dsimp only
    split
    · exact Or.inl rfl
    · exact Or.inr (Or.inl ⟨rfl, _, fun _ _ => reset_nl _ _ _ _ _, rfl⟩)
  · exact Or.inr (Or.inr ⟨rfl, _, rfl⟩)
  · exact Or.inr (Or.inl ⟨rfl, _, fun _ _ => frame_nl _ _ _ _ _, rfl⟩)
  · exact Or.inr (Or.inr ⟨rfl, _, rfl⟩)
  · exact Or.inr (Or.inl ⟨rfl, _, fun _ _ => blocked_nl _ _, rfl⟩)

theorem onRecv_nl {s : State σ} {id : Nat} {op : RecvS.Op} (h : ∀ st ses, NoLim (recvStep st ses op)) :
    NoLim (s.onRecv id op) := by
  unfold State.onRecv
  split
  · exact .ok _
  · split
    · rename_i hh; exact (h _ _).err hh
    · exact .ok _

/-- A frame about a stream of the peer is accepted only below the limit that the peer was told.  It opens that
stream and all those before it that are not open yet, in order.  At or above the limit the connection fails; and only
then is it because of the limit. -/
theorem C37_frame_opens {K : Kind σ γ} (hK : KindOk K) {q : Prop} {role : Role} {cfg : Cfg} (hc : cfg.Ok) {s : State σ}
    {h : History σ γ} (hr : Reach K q role cfg s h) (hp : s.peer.isSome = true) {f : Frame} {t : SType} {i : Nat} {b : Bool}
    (hf : f.target = some (nth t role.other i, b)) :
    (∀ s' os, exec K s (.frame f) = .ok (s', os) → i < advertised cfg t h ∧
      os = (List.range' (opened t h).length (i + 1 - (opened t h).length)).map (fun j => .opened (nth t role.other j))) ∧
    (advertised cfg t h ≤ i → ∃ e, exec K s (.frame f) = .error e) ∧
    (exec K s (.frame f) = .error .streamLimit → advertised cfg t h ≤ i) := by
  obtain ⟨n, hl⟩ := reach_link hK hc hr
  have hrem : isRemote s.role (nth t role.other i) = true := by rw [hl.role]; exact isRemote_nth t role i
  have ho := obtain_remote hK hl.inv hrem hp
  rw [typeOf_nth, index_nth, hl.advertised] at ho
  rw [link_opened hl]
  show (∀ s' os, inputFrame K s f = .ok (s', os) → _) ∧ (_ → ∃ e, inputFrame K s f = .error e) ∧ (inputFrame K s f = _ → _)
  rcases frame_of_target K hf s with hx | ⟨_, op, hop, hx⟩ | ⟨_, g, hx⟩
  · rw [hx]
    exact ⟨(fun _ _ hh => by cases hh), fun _ => ⟨_, rfl⟩, (fun hh => by cases hh)⟩
  · rw [hx]
    unfold frameRecv
    cases isSendOnly s.role (nth t role.other i) with
    | true => exact ⟨(fun _ _ hh => by cases hh), fun _ => ⟨_, rfl⟩, (fun hh => by cases hh)⟩
    | false =>
      rw [if_neg (by decide)]
      by_cases hi : i < advertised cfg t h
      · rw [if_pos hi] at ho
        obtain ⟨s1, h1, _, _, _⟩ := ho
        rw [h1]
        dsimp only
        refine ⟨fun s' os hh => ⟨hi, ?_⟩, fun hh => by omega, fun hh => ?_⟩
        · split at hh
          · cases hh
          · rw [← hl.role]
            exact (Prod.mk.inj (Except.ok.inj hh)).2.symm
        · split at hh
          · rename_i e he
            cases hh
            exact absurd he (onRecv_nl hop)
          · cases hh
      · rw [if_neg hi] at ho
        rw [ho]
        exact ⟨(fun _ _ hh => by cases hh), fun _ => ⟨_, rfl⟩, fun _ => by omega⟩
  · rw [hx]
    unfold frameSend
    cases isRecvOnly s.role (nth t role.other i) with
    | true => exact ⟨(fun _ _ hh => by cases hh), fun _ => ⟨_, rfl⟩, (fun hh => by cases hh)⟩
    | false =>
      rw [if_neg (by decide)]
      by_cases hi : i < advertised cfg t h
      · rw [if_pos hi] at ho
        obtain ⟨s1, h1, _, _, _⟩ := ho
        rw [h1]
        dsimp only
        refine ⟨fun s' os hh => ⟨hi, ?_⟩, fun hh => by omega, (fun hh => by cases hh)⟩
        rw [← hl.role]
        exact (Prod.mk.inj (Except.ok.inj hh)).2.symm
      · rw [if_neg hi] at ho
        rw [ho]
        exact ⟨(fun _ _ hh => by cases hh), fun _ => ⟨_, rfl⟩, fun _ => by omega⟩

/-- A frame about a stream of our own is accepted only if the application created that stream, and never opens
anything. -/
theorem C37_frame_own {K : Kind σ γ} (hK : KindOk K) {q : Prop} {role : Role} {cfg : Cfg} (hc : cfg.Ok) {s : State σ}
    {h : History σ γ} (hr : Reach K q role cfg s h) {f : Frame} {t : SType} {i : Nat} {b : Bool}
    (hf : f.target = some (nth t role i, b)) :
    (∀ s' os, exec K s (.frame f) = .ok (s', os) → nth t role i ∈ created t h ∧ os = []) ∧
    (nth t role i ∉ created t h → exec K s (.frame f) = .error .streamState ∨
      exec K s (.frame f) = .error .protocolViolation) := by
  obtain ⟨n, hl⟩ := reach_link hK hc hr
  have hloc : isLocal s.role (nth t role i) = true := by rw [hl.role, isLocal_nth]; simp
  have ho := obtain_local (K := K) hl.inv hloc
  rw [typeOf_nth, index_nth] at ho
  have hmem : nth t role i ∈ created t h ↔ i < (s.loc t).used := by
    rw [hl.created]
    unfold firstIds
    constructor
    · intro hm
      obtain ⟨j, hj, he⟩ := List.mem_map.mp hm
      rw [← nth_inj he]
      exact List.mem_range.mp hj
    · exact fun hi => List.mem_map.mpr ⟨i, List.mem_range.mpr hi, rfl⟩
  rw [hmem]
  show (∀ s' os, inputFrame K s f = .ok (s', os) → _) ∧ (_ → inputFrame K s f = _ ∨ inputFrame K s f = _)
  rcases frame_of_target K hf s with hx | ⟨_, op, hop, hx⟩ | ⟨_, g, hx⟩
  · rw [hx]
    exact ⟨(fun _ _ hh => by cases hh), fun _ => Or.inr rfl⟩
  · rw [hx]
    unfold frameRecv
    cases isSendOnly s.role (nth t role i) with
    | true => exact ⟨(fun _ _ hh => by cases hh), fun _ => Or.inl rfl⟩
    | false =>
      rw [if_neg (by decide), ho]
      by_cases hi : i < (s.loc t).used
      · rw [if_pos hi]
        refine ⟨fun s' os hh => ⟨hi, ?_⟩, fun hh => absurd hi hh⟩
        dsimp only at hh
        split at hh
        · cases hh
        · exact (Prod.mk.inj (Except.ok.inj hh)).2.symm
      · rw [if_neg hi]
        exact ⟨(fun _ _ hh => by cases hh), fun _ => Or.inl rfl⟩
  · rw [hx]
    unfold frameSend
    cases isRecvOnly s.role (nth t role i) with
    | true => exact ⟨(fun _ _ hh => by cases hh), fun _ => Or.inl rfl⟩
    | false =>
      rw [if_neg (by decide), ho]
      by_cases hi : i < (s.loc t).used
      · rw [if_pos hi]
        exact ⟨fun s' os hh => ⟨hi, (Prod.mk.inj (Except.ok.inj hh)).2.symm⟩, fun hh => absurd hi hh⟩
      · rw [if_neg hi]
        exact ⟨(fun _ _ hh => by cases hh), fun _ => Or.inl rfl⟩

/-- Frames about receiving on a stream that only we send on, or about sending on a stream that only the peer sends
on, are errors. -/
theorem C37_directions (K : Kind σ γ) {s : State σ} {f : Frame} {r : Role} {i : Nat} {b : Bool}
    (hf : f.target = some (nth .uni r i, b)) (hb : b = decide (r = s.role)) :
    exec K s (.frame f) = .error .streamState ∨ exec K s (.frame f) = .error .protocolViolation := by
  have hbi : isBidi (nth .uni r i) = false := isBidi_nth .uni r i
  show inputFrame K s f = _ ∨ inputFrame K s f = _
  rcases frame_of_target K hf s with hx | ⟨h1, op, _, hx⟩ | ⟨h1, g, hx⟩
  · exact Or.inr hx
  · rw [hx]
    unfold frameRecv isSendOnly
    rw [hbi, isLocal_nth, ← hb, h1]
    exact Or.inl rfl
  · rw [hx]
    unfold frameSend isRecvOnly isRemote
    rw [hbi, isLocal_nth, ← hb, h1]
    exact Or.inl rfl

/-- There are no streams but those that the application created or the peer opened, each in the directions of its
type. -/
theorem C37_tables {K : Kind σ γ} (hK : KindOk K) {q : Prop} {role : Role} {cfg : Cfg} (hc : cfg.Ok) {s : State σ}
    {h : History σ γ} (hr : Reach K q role cfg s h) :
    (s.recv.map (·.1)).Nodup ∧ (s.send.map.map (·.1)).Nodup ∧
    (∀ id ∈ s.recv.map (·.1), id ∈ created .bidi h ∨ id ∈ opened .bidi h ∨ id ∈ opened .uni h) ∧
    (∀ id ∈ s.send.map.map (·.1), id ∈ created .bidi h ∨ id ∈ opened .bidi h ∨ id ∈ created .uni h) := by
  obtain ⟨n, hl⟩ := reach_link hK hc hr
  have key : ∀ id, Known s n id → (isLocal s.role id = true ∧ id ∈ created (typeOf id) h) ∨
      (isLocal s.role id = false ∧ id ∈ opened (typeOf id) h) := by
    intro id hk
    unfold Known at hk
    cases hlc : isLocal s.role id with
    | true =>
      rw [if_pos hlc] at hk
      refine Or.inl ⟨rfl, ?_⟩
      rw [hl.created, ← hl.role]
      exact List.mem_map.mpr ⟨_, List.mem_range.mpr hk, nth_of_local hlc⟩
    | false =>
      rw [if_neg (by rw [hlc]; decide)] at hk
      refine Or.inr ⟨rfl, ?_⟩
      rw [hl.opened, ← hl.role]
      exact List.mem_map.mpr ⟨_, List.mem_range.mpr hk, nth_of_remote (by unfold isRemote; rw [hlc]; rfl)⟩
  refine ⟨hl.inv.srt.nodup_keys, hl.inv.sok.keys, fun id hid => ?_, fun id hid => ?_⟩
  · obtain ⟨h1, h2⟩ := hl.inv.rknown id hid
    unfold isSendOnly at h1
    rcases key id h2 with ⟨h3, h4⟩ | ⟨h3, h4⟩
    · rw [h3] at h1
      unfold typeOf at h4
      cases hb : isBidi id with
      | true => rw [hb] at h4; exact Or.inl h4
      | false => rw [hb] at h1; cases h1
    · unfold typeOf at h4
      cases hb : isBidi id with
      | true => rw [hb] at h4; exact Or.inr (Or.inl h4)
      | false => rw [hb] at h4; exact Or.inr (Or.inr h4)
  · obtain ⟨h1, h2⟩ := hl.inv.sknown id hid
    unfold isRecvOnly isRemote at h1
    rcases key id h2 with ⟨h3, h4⟩ | ⟨h3, h4⟩
    · unfold typeOf at h4
      cases hb : isBidi id with
      | true => rw [hb] at h4; exact Or.inl h4
      | false => rw [hb] at h4; exact Or.inr (Or.inr h4)
    · rw [h3] at h1
      unfold typeOf at h4
      cases hb : isBidi id with
      | true => rw [hb] at h4; exact Or.inr (Or.inl h4)
      | false => rw [hb] at h1; cases h1

/-- The peer may open two streams of each type.  It uses the second; that also opens the first. -/
example : ∃ s h, Reach exK True .client exCfg s h ∧
    (decide (opened .uni h = [3, 7]) && s.peer.isSome && decide (advertised exCfg .uni h = 2) &&
      decide ((exec exK s (.frame (.stream false (nth .uni .server 2) 0 [1]))).toOption = none)) = true :=
  of_run (l := [.limits exPeer, .frame (.stream false 7 0 [1, 2])]) (by decide +kernel)

/-! ### C37: limits for the peer -/

/-- The peer never has more streams open at once than we configured, and is never allowed more than that
beyond those that were closed. -/
theorem C37_slots {K : Kind σ γ} (hK : KindOk K) {q : Prop} {role : Role} {cfg : Cfg} (hc : cfg.Ok) {s : State σ}
    {h : History σ γ} (hr : Reach K q role cfg s h) (t : SType) :
    (live t s).length ≤ cfg.streams t ∧ (live t s).length ≤ (opened t h).length ∧
    advertised cfg t h ≤ (opened t h).length - (live t s).length + cfg.streams t := by
  obtain ⟨n, hl⟩ := reach_link hK hc hr
  rw [link_opened hl, ← hl.advertised]
  have h1 := hl.inv.cnt t
  have h2 := (hl.inv.lim t).le
  unfold RFc.nextLimit at h2
  have h3 := hl.inv.allowed t
  have h4 := hl.inv.active t
  rw [hl.cfg] at h4
  omega

/-- Whenever closed streams make room for more than the peer was told, the next chance to write MAX_STREAMS
tells it so. -/
theorem C37_slots_returned {K : Kind σ γ} (hK : KindOk K) {q : Prop} {role : Role} {cfg : Cfg} (hc : cfg.Ok) {s : State σ}
    {h : History σ γ} (hr : Reach K q role cfg s h) (t : SType)
    (hroom : advertised cfg t h < min ((opened t h).length - (live t s).length + cfg.streams t) (2 ^ 62 - 1)) :
    ∃ s', exec K s (.writeMaxStreams t true) = .ok (s',
      [.maxStreams t (min ((opened t h).length - (live t s).length + cfg.streams t) (2 ^ 62 - 1))]) := by
  obtain ⟨n, hl⟩ := reach_link hK hc hr
  rw [link_opened hl, ← hl.advertised] at hroom
  rw [link_opened hl]
  have h1 := hl.inv.cnt t
  have h2 := (hl.inv.lim t).pend
  have h4 := hl.inv.active t
  rw [hl.cfg] at h4
  have hnl : (s.remote t).fc.nextLimit = min (n t - (live t s).length + cfg.streams t) (2 ^ 62 - 1) := by
    unfold RFc.nextLimit
    rw [show Flow.maxVarint = 2 ^ 62 - 1 from rfl, h4]
    congr 1
    omega
  rw [← hnl] at hroom ⊢
  unfold exec
  dsimp only
  unfold RFc.writeStreams
  rw [if_pos (h2 hroom), if_pos rfl]
  exact ⟨_, rfl⟩

/-- The limit on streams open at once is the configured one, also when 0-RTT is rejected. -/
theorem C37_limits_kept {K : Kind σ γ} (hK : KindOk K) {q : Prop} {role : Role} {cfg : Cfg} (hc : cfg.Ok) {s : State σ}
    {h : History σ γ} (hr : Reach K q role cfg s h) (t : SType) : (s.remote t).fc.maxActive = cfg.streams t := by
  obtain ⟨n, hl⟩ := reach_link hK hc hr
  rw [hl.inv.active, hl.cfg]

/-- The peer's first stream is read to its end and cleaned up, so the peer may open another one. -/
example : ∃ s h, Reach exK True .client exCfg s h ∧
    (decide (advertised exCfg .uni h < min ((opened .uni h).length - (live .uni s).length + exCfg.streams .uni) (2 ^ 62 - 1)) &&
      decide (live .uni s = [7])) = true :=
  of_run (l := [.limits exPeer, .frame (.stream false 7 0 [1, 2]), .frame (.stream true 3 0 [1]), .recv 3 (.read 10), .cleanup])
    (by decide +kernel)

/-! ### C37: cleaning up -/

/-- Provided that STOP_SENDING never ended a stream at once: after cleaning up, a stream is gone if and only if it
was done in each of its directions before.  What is missing are the streams that STOP_SENDING ended at once
(`C57_ended_stream_stays`). -/
theorem C37_cleanup_partial {K : Kind σ γ} (hK : KindOk K) {role : Role} {cfg : Cfg} (hc : cfg.Ok) {s : State σ}
    {h : History σ γ} (hr : Reach K True role cfg s h) :
    ∃ s', exec K s .cleanup = .ok (s', []) ∧
      (∀ e, e ∈ s'.send.map ↔ e ∈ s.send.map ∧ K.w.ended e.2.st = false) ∧
      (∀ e, e ∈ s'.recv ↔ e ∈ s.recv ∧ ¬ (e.2.isEnded = true ∧
        ∀ x, (e.1, x) ∈ s.send.map → K.w.ended x.st = true)) := by
  obtain ⟨n, hl⟩ := reach_link hK hc hr
  obtain ⟨s', k1, k2⟩ := cleanup_spec K hl.inv
  obtain ⟨h1, _, h3, h4, h5, h6, h7, h8⟩ := cleanup_result hl.inv (reach_seen hK hc hr) k1
  refine ⟨s', ?_, fun e => ⟨fun he => ⟨h6 e he, h1 e he⟩, fun he => h4 e he.1 he.2⟩, fun e => ⟨fun he => ⟨h7 e he, ?_⟩, ?_⟩⟩
  · show (cleanup K s).map (·, []) = _
    rw [k1]
    rfl
  · rintro ⟨h9, h10⟩
    obtain ⟨_, h11⟩ := h3 e he h9
    obtain ⟨⟨k, x⟩, hx, rfl⟩ := List.mem_map.mp h11
    have := h10 x (h6 _ hx)
    rw [h1 _ hx] at this
    cases this
  · rintro ⟨he, hn⟩
    cases hee : e.2.isEnded with
    | false => exact h5 e he hee
    | true =>
      obtain ⟨x, hx, hxe⟩ : ∃ x, (e.1, x) ∈ s.send.map ∧ K.w.ended x.st = false := by
        by_contra hno
        refine hn ⟨hee, fun x hx => ?_⟩
        cases hxe : K.w.ended x.st with
        | true => rfl
        | false => exact absurd ⟨x, hx, hxe⟩ hno
      have hid : e.1 ∈ s.recv.map (·.1) := List.mem_map.mpr ⟨e, he, rfl⟩
      have hsd : e.1 ∈ s.send.map.map (·.1) := List.mem_map.mpr ⟨_, hx, rfl⟩
      refine h8 e he ?_ (List.mem_map.mpr ⟨_, h4 _ hx hxe, rfl⟩)
      have a1 := (hl.inv.rknown _ hid).1
      have a2 := (hl.inv.sknown _ hsd).1
      unfold isSendOnly at a1
      unfold isRecvOnly isRemote at a2
      cases hb : isBidi e.1 with
      | true => rfl
      | false =>
        rw [hb] at a1 a2
        cases hlc : isLocal s.role e.1 <;> rw [hlc] at a1 a2
        · cases a2
        · cases a1

/-- Two streams of the peer are done; one of them in both directions. -/
example : ∃ s h, Reach exK True .client exCfg s h ∧
    (decide (s.recv.map (fun e => (e.1, e.2.isEnded)) = [(1, true), (3, true), (7, false)]) &&
      decide (s.send.map.map (fun e => (e.1, exK.w.ended e.2.st)) = [(1, false)]) &&
      ((exec exK s .cleanup).toOption.any fun r => decide (r.1.recv.map (·.1) = [1, 7]))) = true :=
  of_run (l := [.limits exPeer, .frame (.stream true 1 0 [1]), .frame (.stream false 7 0 [1, 2]), .frame (.stream true 3 0 [1]),
    .recv 3 (.read 10), .recv 1 (.read 10)]) (by decide +kernel)

/-- The steps in which an abandoned stream of the peer stays. -/
def abandoned : List (Op Send.Stream SFc) :=
  [.limits exPeer, .frame (.stream false 3 0 [1]), .recv 3 (.stopSending 5), .recv 3 (.write true 0 0),
    .recv 3 .stopSendingAcked, .frame (.stream true 3 1 [2]), .cleanup]

/-- **A stream that the application abandoned can stay forever.**  The peer has acknowledged the request to stop, and
then the rest of the stream arrives with its end (it was on its way, and the peer need not reset the stream).  The
stream is not cleaned up, although nothing more can arrive, and the peer cannot open another one instead. -/
theorem C37_abandoned_stream_stays : ∃ s h, Reach exK True .client exCfg s h ∧ run .client abandoned = some (s, h) ∧
    live .uni s = [3] ∧ SMap.find s.recv 3 = some (.waitForReset { RFc.new 100 with consumed := 2, retired := 2 } 1 0) := by
  have h : ((run .client abandoned).any fun r => decide (live .uni r.1 = [3]) &&
      decide (SMap.find r.1.recv 3 = some (.waitForReset { RFc.new 100 with consumed := 2, retired := 2 } 1 0))) = true := by
    decide +kernel
  cases hr : run .client abandoned with
  | none => rw [hr] at h; cases h
  | some r =>
    rw [hr] at h
    obtain ⟨h1, h2⟩ := Bool.and_eq_true_iff.mp (show (_ && _) = true from h)
    exact ⟨r.1, r.2, execs_reach .init hr, rfl, of_decide_eq_true h1, of_decide_eq_true h2⟩

/-- Only a reset ends such a stream. -/
theorem C37_abandoned_stream_waits {fc : RFc} {a b : Nat} {ses ses' : RFc} {op : RecvS.Op} {st : RecvS.State} {e : Bool}
    (hop : ∀ x y z, op ≠ .reset x y z) (h : recvStep (.waitForReset fc a b) ses op = .ok (st, ses', e)) :
    ∃ fc', st = .waitForReset fc' a b := by
  cases op with
  | frame fin off d =>
    unfold recvStep at h
    dsimp only at h
    cases hh : (RecvS.State.waitForReset fc a b).inboundFrame ses fin off d with
    | error e => rw [hh] at h; cases h
    | ok r =>
      rw [hh] at h
      cases h
      unfold RecvS.State.inboundFrame RecvS.State.consumeData at hh
      simp only [Except.bind_eq_ok, Except.pure_eq_ok] at hh
      obtain ⟨⟨s1, f1⟩, ⟨⟨f2, f3⟩, _, h1⟩, s2, h2, hh⟩ := hh
      cases h1
      cases h2
      subst hh
      exact ⟨_, rfl⟩
  | reset x y z => exact absurd rfl (hop x y z)
  | _ => cases h; exact ⟨_, rfl⟩

/-! ### C37: panics -/

/-- The only step that can panic is a client's taking of the server's transport parameters.  What is missing: there it
does (`C37_second_limits_panics`). -/
theorem C37_no_panic_partial {K : Kind σ γ} (hK : KindOk K) {q : Prop} {role : Role} {cfg : Cfg} (hc : cfg.Ok) {s : State σ}
    {h : History σ γ} (hr : Reach K q role cfg s h) (op : Op σ γ) (ha : op.Allowed s h) :
    (exec K s op = .error .panic ↔ LimitsPanic s op) ∧
    ∀ e, exec K s op = .error e → e ≠ .panic → ∃ f, op = .frame f := by
  obtain ⟨n, hl⟩ := reach_link hK hc hr
  have hn : op.isRejected = true → ∀ t, n t = 0 := by
    intro hj
    cases op <;> first | exact hl.still ha.2 | cases hj
  have hlim : LimitsPanic s op → exec K s op = .error .panic := by
    rintro ⟨⟨p, rfl⟩, h1⟩
    rcases setInitialLimits_spec K hl.inv p with ⟨_, h2⟩ | ⟨h2, _⟩
    · exact h2
    · exact absurd h1 h2
  refine ⟨⟨fun he => ?_, hlim⟩, fun e he hne => ?_⟩
  · rcases exec_spec hK hl.inv op ha hn with ⟨s', os, n', h1, _⟩ | ⟨e, f, _, h1, h2⟩ | ⟨h1, _⟩
    · rw [h1] at he; cases he
    · rw [h1] at he; cases he; exact absurd rfl h2
    · exact h1
  · rcases exec_spec hK hl.inv op ha hn with ⟨s', os, n', h1, _⟩ | ⟨e, f, h1, _, _⟩ | ⟨_, h1⟩
    · rw [h1] at he; cases he
    · exact ⟨f, h1⟩
    · rw [h1] at he; cases he; exact absurd rfl hne

/-- **A client panics** when it handles more of the handshake, such as a session ticket, after the server has opened
a bidirectional stream: it then takes the same transport parameters again. -/
theorem C37_second_limits_panics : ∃ s h, Reach exK True .client exCfg s h ∧ exec exK s (.limits exPeer) = .error .panic := by
  obtain ⟨s, h, h1, h2⟩ := of_run (q := True) (role := .client)
    (l := [.limits exPeer, .frame (.stream false 1 0 [1])])
    (P := fun s _ => match exec exK s (.limits exPeer) with | .error .panic => true | _ => false) (by decide +kernel)
  refine ⟨s, h, h1, ?_⟩
  split at h2
  · assumption
  · cases h2

example : ∃ s h, Reach exK True .server exCfg s h ∧ (s.send.map.map (·.1) == [0, 1]) = true :=
  of_run (l := [.limits exPeer, .frame (.stream false 0 0 [1]), .create .bidi, .limits exPeer]) (by decide +kernel)

/-! ### C59: rejected early data -/

/-- When the server rejects 0-RTT, the client's streams and the limits on their number are those of a new connection.
What is missing: the credit of the connection is not (`C59_credit_lost`, `C59_limit_exceeded`). -/
theorem C59_as_new_partial {K : Kind σ γ} (hK : KindOk K) {q : Prop} {role : Role} {cfg : Cfg} (hc : cfg.Ok) {s s' : State σ}
    {h : History σ γ} (hr : Reach K q role cfg s h) {os : List Out} (ha : (Op.rejected : Op σ γ).Allowed s h)
    (he : exec K s .rejected = .ok (s', os)) :
    s' = { (State.new role cfg : State σ) with conn := s'.conn, peer := s'.peer } ∧ os = [] ∧
    s'.conn = s.conn ∧ s'.peer = s.peer := by
  obtain ⟨rfl, rfl⟩ := Prod.mk.inj (Except.ok.inj he)
  obtain ⟨n, hl⟩ := reach_link hK hc hr
  have hf := reach_fresh hK hc hr ha.2
  refine ⟨?_, rfl, rfl, rfl⟩
  unfold zeroRttRejected State.new
  obtain ⟨role', cfg', peer, conn, ses, rb, ru, lb, lu, send, recv, recvEnded⟩ := s
  obtain rfl : role' = role := hl.role
  obtain rfl : cfg' = cfg := hl.cfg
  have h1 : ses = _ := hf.ses
  have h2 : rb = _ := hf.rb
  have h3 : ru = _ := hf.ru
  subst h1 h2 h3
  rfl

/-- Then the limits of the server's transport parameters apply: to streams as they are, and to the credit of the
connection only if they raise it. -/
theorem C59_then_limits {K : Kind σ γ} (hK : KindOk K) {q : Prop} {role : Role} {cfg : Cfg} (hc : cfg.Ok) {s s' : State σ}
    {h : History σ γ} (hr : Reach K q role cfg s h) {os : List Out} (ha : (Op.rejected : Op σ γ).Allowed s h)
    (he : exec K s .rejected = .ok (s', os)) (p : Peer) :
    ∃ s2 os2, exec K s' (.limits p) = .ok (s2, os2) ∧
      (s2.lb.limit = p.maxBidi ∧ s2.lb.used = 0) ∧ (s2.lu.limit = p.maxUni ∧ s2.lu.used = 0) ∧
      s2.send.map = [] ∧ s2.recv = [] ∧ s2.peer = some p ∧
      s2.conn.used = s.conn.used ∧ s2.conn.limit = max s.conn.limit p.maxData := by
  obtain ⟨h1, _, h3, h4⟩ := C59_as_new_partial hK hc hr ha he
  have hsend : s'.send = {} := by rw [h1]; rfl
  have hrecv : s'.recv = [] := by rw [h1]; rfl
  have hlb : s'.lb = { limit := 0 } := by rw [h1]; rfl
  have hlu : s'.lu = { limit := 0 } := by rw [h1]; rfl
  have hu : updateInitialLimit K s'.send p = .ok {} := by rw [hsend]; rfl
  show ∃ s2 os2, setInitialLimits K s' p = _ ∧ _
  unfold setInitialLimits
  have hm : (if s'.role = .client then updateInitialLimit K s'.send p else .ok s'.send) = .ok {} := by
    rw [hu, hsend]
    split <;> rfl
  rw [hm]
  refine ⟨_, _, rfl, ⟨?_, ?_⟩, ⟨?_, ?_⟩, rfl, hrecv, rfl, ?_, ?_⟩
  · rw [update_limit, hlb]; exact Nat.zero_max _
  · rw [update_used, hlb]
  · rw [update_limit, hlu]; exact Nat.zero_max _
  · rw [update_used, hlu]
  · rw [update_used, h3]
  · rw [update_limit, h3]

/-- Early data: a stream is created, data is sent and a part of the credit used. -/
def early : List (Op Send.Stream SFc) := [.limits exPeer, .create .bidi, .create .uni, .spend 500]

example : ∃ s h, Reach exK True .client exCfg s h ∧
    (decide (created .bidi h = [0]) && decide (s.send.map.map (·.1) = [0, 2]) && ready s h .rejected) = true :=
  of_run (l := early) (by decide +kernel)

/-- **Credit is lost.**  The early data used all credit of the connection.  The server rejected it and gives the same
credit again, but the client counts the rejected data and can send nothing. -/
theorem C59_credit_lost : ∃ s h, Reach exK True .client exCfg s h ∧
    run .client (early ++ [.rejected, .limits exPeer]) = some (s, h) ∧ s.conn.available = 0 ∧ s.conn.used = exPeer.maxData := by
  have h : ((run .client (early ++ [.rejected, .limits exPeer])).any fun r =>
      decide (r.1.conn.available = 0) && decide (r.1.conn.used = exPeer.maxData)) = true := by decide +kernel
  cases hr : run .client (early ++ [.rejected, .limits exPeer]) with
  | none => rw [hr] at h; cases h
  | some r =>
    rw [hr] at h
    obtain ⟨h1, h2⟩ := Bool.and_eq_true_iff.mp (show (_ && _) = true from h)
    exact ⟨r.1, r.2, execs_reach .init hr, rfl, of_decide_eq_true h1, of_decide_eq_true h2⟩

/-- **The server's limit is exceeded.**  The server gives less credit than it did in the earlier connection.  The client
still uses the credit that it remembered. -/
theorem C59_limit_exceeded : ∃ s h, Reach exK True .client exCfg s h ∧
    run .client [.limits exPeer, .create .bidi, .rejected, .limits { exPeer with maxData := 100 }, .create .bidi, .spend 500] =
      some (s, h) ∧ s.conn.used = 500 := by
  have h : ((run .client [.limits exPeer, .create .bidi, .rejected, .limits { exPeer with maxData := 100 }, .create .bidi,
      .spend 500]).any fun r => decide (r.1.conn.used = 500)) = true := by decide +kernel
  cases hr : run .client [.limits exPeer, .create .bidi, .rejected, .limits { exPeer with maxData := 100 }, .create .bidi,
      .spend 500] with
  | none => rw [hr] at h; cases h
  | some r =>
    rw [hr] at h
    exact ⟨r.1, r.2, execs_reach .init hr, rfl, of_decide_eq_true h⟩

end Neqo.Strs
