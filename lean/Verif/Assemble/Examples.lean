import Verif.Assemble.Props

/-! # C87: findings and examples -/

namespace Neqo.Asm

def exKeys (i h : Bool) (a : Option Bool) : Space → Option Key
  | .initial => if i then some ⟨true, 16, 1⟩ else none
  | .handshake => if h then some ⟨true, 16, 1⟩ else none
  | .app => a.map fun l => ⟨l, 16, 1⟩

/-- A client in the handshake with a full-size profile. -/
def exConn : Conn where
  client := true
  connected := false
  confirmed := false
  primary := true
  scone := false
  dcid := 8
  scid := 8
  token := 0
  limit := 1252
  mtu := 1252
  probe := none
  keys := exKeys true true none
  closing := false

/-- Writers with an ACK of `a` bytes and data of `n` bytes in the given spaces. -/
def exW (a n : Space → Nat) : Writers where
  ack := fun s r => if a s < r then a s else 0
  path := fun _ => (0, false)
  data := fun s r => min (n s) r
  ping := fun _ => false
  close := fun _ r => min 20 r
  more := false

theorem exW_polite (a n : Space → Nat) : Polite (exW a n) where
  ack := by
    intro s r h
    simp only [exW]
    split <;> omega
  path := by
    intro s r h
    simp only [exW]
    split <;> omega
  path' := by intro r h; simp only [exW]; omega
  data := by intro s r; simp only [exW]; omega
  close := by intro s r; simp only [exW]; omega

def at1 (s : Space) (n : Nat) : Space → Nat := fun t => if t = s then n else 0

theorem exKeys_ok {c : Conn} {i h : Bool} {a : Option Bool} (hk : c.keys = exKeys i h a)
    (ha : c.connected = true → a = some false ∨ a = none) : KeysOk c := by
  constructor
  · intro k hh
    rw [hk] at hh
    cases i <;> simp [exKeys] at hh
    rw [← hh]
  · intro k hh
    rw [hk] at hh
    cases h <;> simp [exKeys] at hh
    rw [← hh]
  · intro k hh hc
    rw [hk] at hh
    rcases ha hc with h1 | h1 <;> subst h1 <;> simp [exKeys] at hh
    rw [← hh]

/-- Hypotheses of the theorems are met: a client's Initial with a Handshake packet behind it is padded
to 1252 bytes; the Initial keys are discarded. -/
example :
    KeysOk exConn ∧ Polite (exW (at1 .initial 20) (fun _ => 100)) ∧
    output exConn (exW (at1 .initial 20) (fun _ => 100)) = .ok (some
      ⟨[⟨.initial, true, 163, true, true, false⟩, ⟨.handshake, true, 142, true, true, false⟩],
       List.replicate 947 0, [(.handshake, 142), (.initial, 1110)], [.initial]⟩) :=
  ⟨exKeys_ok rfl (by intro h; cases h), exW_polite _ _, by decide +kernel⟩

/-- With SCONE the datagram of an Initial packet ends with the indication. -/
example :
    ∃ d, output { exConn with scone := true } (exW (fun _ => 0) (at1 .initial 2000)) = .ok (some d) ∧
      d.padding = [0xc8, 0x13] ∧ d.len = 1252 := by
  refine ⟨_, rfl, ?_, ?_⟩ <;> decide +kernel

/-- A path MTU probe of a connected endpoint is exactly as large as asked for. -/
example :
    let c := { exConn with connected := true, probe := some 1352, keys := exKeys false false (some false) }
    ∃ d, output c (exW (fun _ => 0) (at1 .app 50)) = .ok (some d) ∧ d.len = 1352 ∧
      d.pkts.map Pkt.probe = [true] := by
  refine ⟨_, rfl, ?_, ?_⟩ <;> decide +kernel

/-- Nothing to send: no datagram. -/
example : output exConn (exW (fun _ => 0) (fun _ => 0)) = .ok none := by decide +kernel

/-- A frame writer that does not keep to its space makes `build` fail. -/
example :
    output exConn { exW (fun _ => 0) (fun _ => 0) with data := fun _ r => r + 1 } = .error .internal := by
  decide +kernel

/-- A client with more CRYPTO data sends nothing behind its Initial packet. -/
example :
    ∃ d, output exConn { exW (fun _ => 0) (fun _ => 100) with more := true } = .ok (some d) ∧
      d.pkts.map Pkt.space = [.initial] ∧ d.len = 1252 := by
  refine ⟨_, rfl, ?_, ?_⟩ <;> decide +kernel

/-- The hypotheses of `C87_progress` are met: a client with Initial, Handshake and 1-RTT keys has only 1-RTT data to
send. -/
example : ∃ d, output { exConn with keys := exKeys true true (some false) } (exW (at1 .app 10) (fun _ => 0)) =
    .ok (some d) := by
  refine C87_progress (s := .app) (m := 100) rfl (exW_polite _ _) ?_ rfl (by decide) rfl ?_
  · intro s k hk
    cases s <;> (cases hk; decide)
  · left; intro r hr
    show 0 < if at1 .app 10 .app < r then at1 .app 10 .app else 0
    rw [if_pos (by show 10 < r; omega)]
    decide

example :
    ∃ d, output { exConn with keys := exKeys true true (some false) }
      (exW (at1 .app 10) (fun _ => 0)) = .ok (some d) ∧ d.len = 36 ∧ d.pkts.map Pkt.space = [.app] := by
  refine ⟨_, rfl, ?_, ?_⟩ <;> decide +kernel

/-- **Finding.** A client sends an Initial packet in a datagram of fewer than 1200 bytes when the send
profile is limited: by the pacer (here), by the congestion window or by the amplification limit.  RFC
9000, section 14.1, asks clients to expand every datagram with an Initial packet to at least 1200
bytes, and servers to discard Initial packets in smaller datagrams. -/
theorem C87_small_initial :
    ∃ (c : Conn) (w : Writers) (d : Dgram),
      c.client = true ∧ KeysOk c ∧ Polite w ∧
      c.limit = profileLimit false 12520 100000 c.mtu true false ∧ 1200 ≤ c.mtu ∧
      output c w = .ok (some d) ∧ (∃ p ∈ d.pkts, p.space = .initial) ∧ d.len = 255 := by
  refine ⟨{ exConn with limit := 255 }, exW (at1 .initial 20) (fun _ => 0), _,
    rfl, exKeys_ok rfl (by intro h; cases h), exW_polite _ _, rfl, by decide, rfl, ?_, ?_⟩
  · exact ⟨_, List.mem_cons_self, rfl⟩
  · decide +kernel

/-- Whenever the limit of the profile is less than 1200 and no probe is wanted, every datagram is too
small for an Initial packet. -/
theorem C87_small_initial_always {c : Conn} {w : Writers} {d : Dgram} (hn : c.probe = none)
    (hl : c.limit < 1200) (e : output c w = .ok (some d)) : d.len < 1200 :=
  Nat.lt_of_le_of_lt ((C87_size (by intro p h; rw [hn] at h; cases h) e).1 hn) hl

/-- A server sends an ack-eliciting Initial packet in a datagram of fewer than 1200 bytes when what is
left of its amplification limit is less than that. -/
theorem C87_small_server_initial :
    ∃ (c : Conn) (w : Writers) (d : Dgram),
      c.client = false ∧ KeysOk c ∧ Polite w ∧
      c.limit = profileLimit false 12520 600 c.mtu false false ∧
      output c w = .ok (some d) ∧ (∃ p ∈ d.pkts, p.space = .initial ∧ p.elicits = true) ∧
      d.len = 600 := by
  refine ⟨{ exConn with client := false, limit := 600 }, exW (fun _ => 0) (at1 .initial 90), _,
    rfl, exKeys_ok rfl (by intro h; cases h), exW_polite _ _, rfl, rfl, ?_, ?_⟩
  · exact ⟨_, List.mem_cons_self, rfl, by decide +kernel⟩
  · decide +kernel

/-- **Finding.** The padding for an Initial packet is put behind the last packet of the datagram even
if that has a short header.  The receiver cannot tell the padding from the packet: it sees a packet
that is longer than the one that was sent and that it cannot decrypt.  Here a client with 1-RTT keys
acknowledges an Initial and a 1-RTT packet in one datagram. -/
theorem C87_padding_joins_short :
    ∃ (c : Conn) (w : Writers) (d : Dgram),
      KeysOk c ∧ Polite w ∧ c.limit = c.mtu ∧ output c w = .ok (some d) ∧
      (d.pkts.map fun p => (p.space, p.long, p.size)) = [(.initial, true, 63), (.app, false, 46)] ∧
      asRead d.pkts d.padding.length = [63, 1189] := by
  refine ⟨{ exConn with connected := true, keys := exKeys true false (some false) },
    exW (fun _ => 20) (fun _ => 0), _,
    exKeys_ok rfl (by intro _; exact .inl rfl), exW_polite _ _, rfl, rfl, ?_, ?_⟩
  all_goals decide +kernel

/-- The same with data in the 1-RTT packet, when the profile does not allow a full-size datagram. -/
theorem C87_padding_joins_data :
    ∃ (c : Conn) (w : Writers) (d : Dgram),
      KeysOk c ∧ Polite w ∧ c.client = false ∧
      c.limit = profileLimit false 12520 1000 c.mtu false false ∧ output c w = .ok (some d) ∧
      (d.pkts.map fun p => (p.space, p.long, p.size, p.elicits)) =
        [(.initial, true, 133, true), (.app, false, 126, true)] ∧
      asRead d.pkts d.padding.length = [133, 867] := by
  refine ⟨{ exConn with client := false, connected := true, limit := 1000,
                        keys := exKeys true false (some false) },
    exW (fun _ => 0) (fun s => if s = .initial then 90 else 100), _,
    exKeys_ok rfl (by intro _; exact .inl rfl), exW_polite _ _, rfl, rfl, rfl, ?_, ?_⟩
  all_goals decide +kernel

/-- **Finding.** While a path MTU probe is wanted, a datagram that is not a probe may be larger than
the path MTU.  Here a server that has just completed the handshake acknowledges a Handshake packet and
sends HANDSHAKE_DONE in the same datagram: it is padded to the size of the probe, but no packet in it
is tagged as one, so its loss counts as congestion and its arrival tells nothing about the path. -/
theorem C87_oversized :
    ∃ (c : Conn) (w : Writers) (d : Dgram),
      c.client = false ∧ c.confirmed = true ∧ KeysOk c ∧ Polite w ∧ c.limit = c.mtu ∧
      c.probe = some 1352 ∧ output c w = .ok (some d) ∧ c.mtu < d.len ∧ d.len = 1352 ∧
      (∀ p ∈ d.pkts, p.probe = false) ∧ d.pkts.map Pkt.space = [.handshake, .app] := by
  refine ⟨{ exConn with client := false, connected := true, confirmed := true, probe := some 1352,
                        keys := exKeys false true (some false) },
    exW (at1 .handshake 20) (at1 .app 1), _,
    rfl, rfl, exKeys_ok rfl (by intro _; exact .inl rfl), exW_polite _ _, rfl, rfl, rfl, ?_, ?_, ?_, ?_⟩
  all_goals decide +kernel

/-- The same without coalescing, when the profile is limited: application data fills the datagram up
to the size of a probe that is not sent. -/
theorem C87_oversized_limited :
    ∃ (c : Conn) (w : Writers) (d : Dgram),
      KeysOk c ∧ Polite w ∧ c.limit = profileLimit false 600 100000 c.mtu false false ∧
      c.probe = some 1352 ∧ output c w = .ok (some d) ∧ c.mtu < d.len ∧ d.len = 1352 ∧
      (∀ p ∈ d.pkts, p.probe = false) := by
  refine ⟨{ exConn with connected := true, confirmed := true, probe := some 1352, limit := 600,
                        keys := exKeys false false (some false) },
    exW (fun _ => 0) (at1 .app 5000), _,
    exKeys_ok rfl (by intro _; exact .inl rfl), exW_polite _ _, rfl, rfl, rfl, ?_, ?_, ?_⟩
  all_goals decide +kernel

/-- **Finding.** A packet with PATH_CHALLENGE or PATH_RESPONSE frames that is sent when only ACK frames
are allowed is ack-eliciting, but is not recorded as such. -/
theorem C87_path_frames_not_recorded :
    ∃ (c : Conn) (w : Writers) (d : Dgram),
      KeysOk c ∧ Polite w ∧ output c w = .ok (some d) ∧
      ∃ p ∈ d.pkts, p.elicits = true ∧ p.ack = false := by
  refine ⟨{ exConn with connected := true, limit := 255, keys := exKeys false false (some false) },
    { exW (fun _ => 0) (fun _ => 0) with path := fun r => if 9 < r then (9, false) else (0, false) }, _,
    exKeys_ok rfl (by intro _; exact .inl rfl), ?_, rfl, ?_⟩
  · constructor
    · exact (exW_polite (fun _ => 0) (fun _ => 0)).ack
    · intro s r h
      simp only [exW, ite_self, Nat.zero_add, Nat.sub_zero]
      split <;> (dsimp only; omega)
    · intro r h
      dsimp only
      split <;> (dsimp only; omega)
    · exact (exW_polite (fun _ => 0) (fun _ => 0)).data
    · exact (exW_polite (fun _ => 0) (fun _ => 0)).close
  · exact ⟨_, List.mem_cons_self, by decide +kernel, by decide +kernel⟩

/-- A token that does not fit stops a client for good: nothing is ever sent, whatever there is to
send. -/
theorem C87_long_token_silent {c : Conn} {w : Writers} {k : Key} (hk : c.keys .initial = some k)
    (hl : k.long = true) (ht : spaceLimit c .initial ≤ c.token) : output c w = .ok none := by
  have hh : header c .initial k 0 (spaceLimit c .initial - k.expansion) = none := by
    cases e : header c .initial k 0 (spaceLimit c .initial - k.expansion) with
    | none => rfl
    | some h =>
      exfalso
      unfold header at e
      rw [hl] at e
      simp only [if_true, true_and] at e
      split at e
      · split at e
        · cases e
        · rename_i h1 h2
          exact h2 (fun hlt => by omega)
      · cases e
  have hs : space c w .initial St.init = .ok { St.init with pad := c.probe.isSome, stop := true } := by
    unfold space
    rw [hk]
    show (match header c .initial k 0 (spaceLimit c .initial - k.expansion) with
      | none => _ | some h => _) = _
    rw [hh]
    simp [St.init]
  unfold output
  unfold spaces
  rw [if_neg (by simp [St.init]), hs]
  rfl

end Neqo.Asm
