import Verif.Server.Props

/-!
# C78: what goes wrong, and examples
-/
namespace Neqo.Srv
open Neqo.Codec (Bytes beBytes)
open Neqo.Pkt (Version Ty Public PErr)
open Spec

variable {C : Type}

/-! ## Connections that never start -/

/-- A connection at a server until the first packet that it can decrypt, and, roughly, after it.
`cid` is the connection ID that it has made for itself. -/
inductive Early where
  | waiting (cid : Bytes)
  | up (cid : Bytes)
  deriving Repr, DecidableEq

/-- What such a connection does: it has the connection ID that it made (cid.rs:523-525; that of
the client is added when a packet was decrypted, connection/mod.rs:2108-2114); it goes on when
a packet can be decrypted (`auth`), and otherwise drops the datagram and stays in `State::Init`
or `State::WaitInitial` (connection/mod.rs:1590-1619, 1906-1932); and in these states it
never sends, never wants to be called and does not look at its timers
(connection/mod.rs:1277-1279). -/
def early (auth : Dgram → Bool) (gen : Nat → Bytes) : Iface Early where
  new _ _ _ _ now := some (.waiting (gen now))
  valid c x := match c with | .waiting y => x = y | .up y => x = y
  input c d _ := match c with | .waiting y => if auth d then .up y else c | .up _ => c
  output c _ _ := (c, .none)
  closed _ := false

/-- A datagram with a first packet that looks like an Initial packet, but nothing in it can be
decrypted. -/
structure Spec.Bogus (cfg : Config C) (auth : Dgram → Bool) (gen : Nat → Bytes) (d : Dgram) : Prop where
  size : 1200 ≤ d.data.length
  auth : auth d = false
  first : ∃ p scid v, First cfg d p ∧ p.ty = .initial ∧ p.version = some v.wire ∧ v ∈ cfg.versions ∧ p.scid = some scid ∧
    p.token = [] ∧ ∀ n, p.dcid ≠ gen n

def Waiting (gen : Nat → Bytes) (s : Server Early) : Prop := ∀ c ∈ s.conns, ∃ n, c = .waiting (gen n)

theorem bogus_handle {cfg : Config Early} {auth : Dgram → Bool} {gen : Nat → Bytes} (hc : cfg.conn = early auth gen)
    (hv : cfg.av.validation = .never) {s : Server Early} (hw : Waiting gen s) {d : Dgram} (hd : Bogus cfg auth gen d) (now : Nat) :
    handle cfg s d now = .ok ({ s with conns := s.conns ++ [.waiting (gen now)] }, .none) := by
  obtain ⟨h1, h2, p, scid, v, ⟨rest, hf⟩, h4, h5, h6, h7, h8, h9⟩ := hd
  have hver : p.version? = some v := by rw [Public.version?, h5, Option.bind_some, Pkt.wire_of]
  have hfind : s.conns.findIdx? (cfg.conn.valid · p.dcid) = none := by
    rw [List.findIdx?_eq_none_iff]
    intro c hm
    obtain ⟨n, rfl⟩ := hw c hm
    rw [hc]
    simp [early, h9 n]
  have hun : unsupported cfg p = .ok false := by
    unfold unsupported
    rw [if_neg (by rw [h4]; decide), if_pos h4, hver]
    simp [h6]
  have hval : cfg.av.validate cfg.cipher p.token d.src now = .pass := by
    unfold Av.Av.validate
    rw [if_pos h8, if_pos hv]
  have hacc : accept cfg s ⟨scid, p.dcid, p.token, v⟩ d none now =
      ({ s with conns := s.conns ++ [.waiting (gen now)] }, .none) := by
    unfold accept
    rw [hc]
    simp [early, h2]
  have hhi : handleInitial cfg s ⟨scid, p.dcid, p.token, v⟩ d now =
      .ok ({ s with conns := s.conns ++ [.waiting (gen now)] }, .none) := by
    unfold handleInitial
    dsimp only
    rw [hval]
    dsimp only
    rw [hacc]
  have hni : newInitial cfg s p d now = .ok ({ s with conns := s.conns ++ [.waiting (gen now)] }, .none) := by
    unfold newInitial
    rw [if_neg (Nat.not_lt.mpr h1)]
    simp only [h7, hver]
    exact hhi
  have hu : unknown cfg s p d now = .ok ({ s with conns := s.conns ++ [.waiting (gen now)] }, .none) := by
    unfold unknown
    rw [if_neg (by rw [h4]; decide), hun]
    dsimp only
    rw [if_pos h4]
    exact hni
  unfold handle
  rw [hf]
  dsimp only
  rw [hfind]
  exact hu

theorem bogus_drain {cfg : Config Early} {auth : Dgram → Bool} {gen : Nat → Bytes} (hc : cfg.conn = early auth gen)
    (hv : cfg.av.validation = .never) (l : List (Dgram × Nat)) (hl : ∀ x ∈ l, Bogus cfg auth gen x.1) :
    ∀ s : Server Early, Waiting gen s →
      drain cfg l s = .ok ({ s with conns := s.conns ++ l.map fun x => .waiting (gen x.2) }, none, []) := by
  induction l with
  | nil => intro s _; simp [drain]
  | cons x l ih =>
    obtain ⟨d, t⟩ := x
    intro s hw
    unfold drain
    rw [bogus_handle hc hv hw (hl _ (List.mem_cons_self ..))]
    dsimp only
    rw [ih (fun x hx => hl x (List.mem_cons_of_mem _ hx)) _ ?_]
    · simp
    · intro c hcm
      simp only [List.mem_append, List.mem_singleton] at hcm
      rcases hcm with h | h
      · exact hw c h
      · exact ⟨t, h⟩

theorem waiting_output {cfg : Config Early} {auth : Dgram → Bool} {gen : Nat → Bytes} (hc : cfg.conn = early auth gen)
    (now max : Nat) (cs : List Early) : nextOutput cfg now max cs none = (cs, .none) := by
  induction cs with
  | nil => rfl
  | cons c cs ih =>
    unfold nextOutput
    rw [ih, hc]
    rfl

/-- An attacker needs only one datagram for a connection that is never forgotten: the server
makes a new connection for every Initial packet before it knows whether it can be decrypted;
a connection that has decrypted nothing has no timer and never closes.  So after any number of
calls, at whatever times, there is one connection for each such datagram that ever came. -/
theorem C78_bogus_initial_stays (cfg : Config Early) (auth : Dgram → Bool) (gen : Nat → Bytes) (hc : cfg.conn = early auth gen)
    (hv : cfg.av.validation = .never) (calls : List Call) (hcalls : ∀ c ∈ calls, ∀ d ∈ c.ds, Bogus cfg auth gen d) :
    ∃ s, run cfg calls Server.new = .ok s ∧ s.conns.length = (calls.map Call.arrivals).flatten.length ∧
      ∀ c ∈ s.conns, ∃ n, c = .waiting (gen n) := by
  suffices H : ∀ s : Server Early, Waiting gen s → s.saved = [] →
      ∃ s', run cfg calls s = .ok s' ∧ s'.conns.length = s.conns.length + (calls.map Call.arrivals).flatten.length ∧
        Waiting gen s' by
    obtain ⟨s', h1, h2, h3⟩ := H Server.new (by simp [Waiting, Server.new]) rfl
    exact ⟨s', h1, by rw [h2]; simp [Server.new], h3⟩
  induction calls with
  | nil => intro s hw _; exact ⟨s, rfl, by simp, hw⟩
  | cons c cs ih =>
    intro s hw hs
    have hb := bogus_drain hc hv (c.ds.map (·, c.now)) (by
      intro x hx
      rw [List.mem_map] at hx
      obtain ⟨d, hd, rfl⟩ := hx
      exact hcalls c (List.mem_cons_self ..) d hd) s hw
    have hp : process cfg s c.ds c.now c.max =
        .ok ({ s with conns := s.conns ++ (c.ds.map (·, c.now)).map fun x => .waiting (gen x.2) }, .none) := by
      unfold process processInput
      rw [hs]
      simp only [drain, hb]
      rw [if_neg (by simp), waiting_output hc]
      have hcl : ∀ l : List Early, l.filter (fun x => !cfg.conn.closed x) = l := by
        intro l
        rw [List.filter_eq_self, hc]
        intro _ _; rfl
      simp only [hcl]
    obtain ⟨s', h1, h2, h3⟩ := ih (fun c' hc' => hcalls c' (List.mem_cons_of_mem _ hc'))
      { s with conns := s.conns ++ (c.ds.map (·, c.now)).map fun x => .waiting (gen x.2) } (by
        intro e he
        simp only [List.mem_append, List.mem_map] at he
        rcases he with h | ⟨x, _, rfl⟩
        · exact hw e h
        · exact ⟨_, rfl⟩) hs
    refine ⟨s', ?_, ?_, h3⟩
    · unfold run
      rw [hp]
      exact h1
    · rw [h2]
      simp only [List.length_append, List.length_map, List.map_cons, List.flatten_cons, Call.arrivals]
      omega

/-! ## The connection ID of a Retry -/

/-- The token does not tie the client to the connection ID that was in the Retry packet: with a
token that is valid, an Initial packet to whatever connection ID is accepted, and the new
connection takes this one for that of the Retry packet (server.rs:336-339).  So a change of the
Source Connection ID of a Retry packet on its way is not found out, which the transport
parameter retry_source_connection_id is for (RFC 9000 §7.3). -/
theorem C78_retry_cid_replaced (cfg : Config C) (s : Server C) (d : Dgram) (now : Nat) (p : Public) (scid : Bytes) (v : Version)
    (h : Opening cfg s d p scid v) (odcid : Bytes)
    (hv : cfg.av.validate cfg.cipher p.token d.src now = .validRetry odcid) (c : C)
    (hn : cfg.conn.new v scid p.dcid (some odcid) now = some c) :
    handle cfg s d now = .ok ({ s with conns := s.conns ++ [(cfg.conn.output (cfg.conn.input c d now) now 1).1] },
      (cfg.conn.output (cfg.conn.input c d now) now 1).2) := by
  obtain ⟨⟨rest, hf⟩, h2, h3, h4, h5, h6, h7⟩ := h
  have hver : p.version? = some v := by rw [Public.version?, h5, Option.bind_some, Pkt.wire_of]
  have hfind : s.conns.findIdx? (cfg.conn.valid · p.dcid) = none := by
    rw [List.findIdx?_eq_none_iff]
    exact h2
  have hun : unsupported cfg p = .ok false := by
    unfold unsupported
    rw [if_neg (by rw [h4]; decide), if_pos h4, hver]
    simp [h6]
  have hacc : accept cfg s ⟨scid, p.dcid, p.token, v⟩ d (some odcid) now =
      ({ s with conns := s.conns ++ [(cfg.conn.output (cfg.conn.input c d now) now 1).1] },
        (cfg.conn.output (cfg.conn.input c d now) now 1).2) := by
    unfold accept
    dsimp only
    rw [hn]
  have hhi : handleInitial cfg s ⟨scid, p.dcid, p.token, v⟩ d now =
      .ok (accept cfg s ⟨scid, p.dcid, p.token, v⟩ d (some odcid) now) := by
    unfold handleInitial
    dsimp only
    rw [hv]
  have hni : newInitial cfg s p d now = .ok (accept cfg s ⟨scid, p.dcid, p.token, v⟩ d (some odcid) now) := by
    unfold newInitial
    rw [if_neg (Nat.not_lt.mpr h3)]
    simp only [h7, hver]
    exact hhi
  have hu : unknown cfg s p d now = .ok (accept cfg s ⟨scid, p.dcid, p.token, v⟩ d (some odcid) now) := by
    unfold unknown
    rw [if_neg (by rw [h4]; decide), hun]
    dsimp only
    rw [if_pos h4]
    exact hni
  unfold handle
  rw [hf]
  dsimp only
  rw [hfind]
  dsimp only
  rw [hu, hacc]

/-! ## Examples -/

def exGen (n : Nat) : Bytes := [7, UInt8.ofNat n]

def exCfg (val : Av.Validate) : Config Early where
  conn := early (fun _ => false) exGen
  versions := [.v1]
  av := ⟨val, 0⟩
  cipher := ⟨fun _ aad pt => pt ++ aad, fun aad ct => if aad.length ≤ ct.length then some (ct.take (ct.length - aad.length)) else none⟩
  cid d := if d.length < 2 then none else some (d.take 2, d.drop 2)
  genCid n := some [9, UInt8.ofNat n]
  rnd _ := 5
  exp := 16
  tag _ _ := List.replicate 16 3

def exSrc : Av.Addr := ⟨.v4 [1, 2, 3, 4], 5⟩
def exDst : Av.Addr := ⟨.v4 [1, 1, 1, 1], 443⟩

/-- A datagram with a long header: an Initial packet if the version is known. -/
def exDgram (version : Nat) (dcid token : Bytes) (n : Nat) : Dgram :=
  let rest := [0x40 ||| UInt8.ofNat (n / 256), UInt8.ofNat (n % 256)] ++ List.replicate n 1
  ⟨exSrc, exDst, [0xc3] ++ beBytes 4 version ++ [UInt8.ofNat dcid.length] ++ dcid ++ [1, 8] ++
    [UInt8.ofNat token.length] ++ token ++ rest⟩

def exOdcid : Bytes := [1, 2, 3, 4, 5, 6, 7, 8]

/-- Three bogus Initial packets: three connections, also a long time later. -/
example :
    (match run (exCfg .never) [⟨[exDgram 1 exOdcid [] 1190, exDgram 1 exOdcid [] 1190], 10, 1⟩, ⟨[exDgram 1 exOdcid [] 1190], 20, 1⟩,
        ⟨[], 1000000000000, 1⟩] Server.new with
      | .ok s => decide (s = ⟨[.waiting [7, 10], .waiting [7, 10], .waiting [7, 20]], [], 0⟩)
      | .error _ => false) = true := by decide +kernel

/-- Small ones are ignored, and datagrams of another version get an answer. -/
example :
    (match process (exCfg .never) Server.new [exDgram 1 exOdcid [] 1100, exDgram 77 exOdcid [] 1190, exDgram 1 exOdcid [] 1190] 10 1 with
      | .ok (s, .dgrams [x]) => decide (s.conns = [] ∧ s.saved.length = 1 ∧ x.dst = exSrc ∧ x.data.length = 24)
      | _ => false) = true := by decide +kernel

/-- A Retry, and a connection after it. -/
example :
    (match process (exCfg .always) Server.new [exDgram 1 exOdcid [] 1190] 10 1 with
      | .ok (s, .dgrams [x]) =>
        match process (exCfg .always) s [exDgram 1 [9, 0] ((x.data.drop 10).take (x.data.length - 26)) 1190] 20 1 with
        | .ok (s', .none) => decide (s.conns = [] ∧ s'.conns = [.waiting [7, 20]])
        | _ => false
      | _ => false) = true := by decide +kernel

/-- And after it, datagrams for the connection reach it. -/
example :
    (match handle { exCfg .never with conn := early (fun _ => true) exGen } ⟨[.waiting [7, 8], .waiting [7, 9]], [], 0⟩
        (exDgram 1 [7, 9] [] 20) 30 with
      | .ok (s, .none) => decide (s.conns = [.waiting [7, 8], .up [7, 9]])
      | _ => false) = true := by decide +kernel

end Neqo.Srv
