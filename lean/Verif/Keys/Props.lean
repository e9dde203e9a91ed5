import Verif.Keys.Stuck

/-!
Properties of packet numbers on the wire (C27), of packet protection (C53) and of key updates
(C54).
-/

namespace Neqo.Keys

/-- The state after a run that is known to work. -/
theorem Hist.reached_of_run {c : Cipher} {es : List Ev} (h : ((Hist.init c).run es).isSome) :
    ∃ h', (Hist.init c).run es = some h' ∧ Hist.Reached c h' := by
  obtain ⟨h', hh⟩ := Option.isSome_iff_exists.mp h
  exact ⟨h', hh, Hist.Reached.init.run hh⟩

/-! ## C27: packet numbers survive truncation -/

/-- A receiver that expects a number within half a window of the one sent recovers it, whatever
the length. -/
theorem C27_in_window {expected pn w : Nat} (h1 : expected < pn + 256 ^ w / 2)
    (h2 : pn ≤ expected + 256 ^ w / 2) (hw : 0 < w) :
    decodePn expected (truncate pn w) w = pn :=
  decodePn_near h1 h2 hw

example : decodePn 0xa82f30eb (truncate 0xa82f9b32 2) 2 = 0xa82f9b32 :=
  C27_in_window (by decide) (by decide) (by decide)

/-- The length the sender picks is enough for a receiver that has seen the largest acknowledged
packet, and has seen no packet half a window above the one sent.  Missing: more than `2 ^ 31`
packets in flight, see `C27_too_many_unacknowledged`. -/
theorem C27_sender_length_partial {expected pn : Nat} (la : Option Nat)
    (hu : unackedRange la pn < 2 ^ 32) (hla : ∀ a, la = some a → a < pn ∧ a < expected)
    (h1 : expected < pn + 256 ^ pnLen la pn / 2) :
    decodePn expected (truncate pn (pnLen la pn)) (pnLen la pn) = pn := by
  have h0 : unackedRange la pn ≠ 0 := by
    cases la with
    | none => exact Nat.succ_ne_zero _
    | some a =>
      have := (hla a rfl).1
      show (pn - a) * 2 ≠ 0
      omega
  obtain ⟨hb, hw⟩ := lt_pow_bytes h0 hu
  have hb' : unackedRange la pn < 256 ^ pnLen la pn := hb
  have hw' : 0 < pnLen la pn := hw
  generalize pnLen la pn = w at *
  cases la with
  | none =>
    have h2 : pn + 1 < 256 ^ w := hb'
    exact decodePn_small h1 (by omega) hw'
  | some a =>
    have h2 : (pn - a) * 2 < 256 ^ w := hb'
    have := hla a rfl
    exact decodePn_near h1 (by omega) hw'

example : pnLen (some 0xabe8b3) 0xac5c02 = 2 ∧
    decodePn 0xabf000 (truncate 0xac5c02 2) 2 = 0xac5c02 := by
  refine ⟨by decide +kernel, ?_⟩
  exact C27_sender_length_partial (some 0xabe8b3) (by decide)
    (by intro a h; obtain rfl := Option.some.inj h; decide) (by decide +kernel)

/-- With more than `2 ^ 31` packets in flight four bytes are not enough, and nothing stops the
sender. -/
theorem C27_too_many_unacknowledged :
    ∃ la pn expected, la < pn ∧ la < expected ∧ expected ≤ pn ∧ pnLen (some la) pn = 4 ∧
      decodePn expected (truncate pn (pnLen (some la) pn)) (pnLen (some la) pn) ≠ pn :=
  ⟨2 ^ 32, 2 ^ 32 + 2 ^ 31 + 2, 2 ^ 32 + 1, by decide +kernel⟩

/-- A whole receiver: an authentic packet whose length was picked knowing that `la` was received
is recovered and does not fail to open, if it is made with the current keys or the ones to follow
and no key update is being waited out.  Missing: the time during which old keys are kept, see
`C27_stale_during_key_update`. -/
theorem C27_history_partial {c : Cipher} {h : Hist} {r : Dx} {p : Wire} {la t : Nat}
    (hr : Hist.Reached c h) (hread : h.k.read = some r) (hidle : h.k.updTime = none)
    (hacc : (r.epoch, la) ∈ h.accepted) (hlt : la < p.pn) (hu : (p.pn - la) * 2 < 2 ^ 32)
    (hlen : p.len = pnLen (some la) p.pn) (hnew : r.stop < p.pn + 256 ^ p.len / 2)
    (hep : p.epoch = r.epoch ∨ p.epoch = r.epoch + 1) :
    (h.k.decrypt p t).2.res ≠ .error .decrypt := by
  obtain ⟨n, w, hn, hw, rd, hz⟩ := hr.inv.r.some r hread
  have hla : la < r.stop := rd.cur _ hacc rfl
  have hdec : decodePn r.stop (truncate p.pn p.len) p.len = p.pn := by
    rw [hlen]
    rw [hlen] at hnew
    exact C27_sender_length_partial (some la) hu
      (by intro a ha; obtain rfl := Option.some.inj ha; exact ⟨hlt, hla⟩) hnew
  have nep := rd.nep
  have rep := rd.rep
  have open_ok : ∀ d : Dx, d.epoch = p.epoch → ∀ d' , K.openWith d p p.pn ≠ (d', some .decrypt) := by
    intro d hd d' ho
    unfold K.openWith at ho
    split at ho
    · cases ho
    · rename_i d₁ hi
      obtain ⟨rfl, _⟩ := Dx.invoked_some hi
      rw [if_pos ⟨hd, rfl⟩] at ho
      split at ho <;> cases ho
  have hrx : ∃ s d, h.k.rx (p.epoch % 2 = 0) = some (s, d) ∧ d.epoch = p.epoch := by
    unfold K.rx
    rw [hread, hn]
    rcases hep with he | he
    · refine ⟨.cur, r, ?_, he.symm⟩
      have e1 : (some r).filter (fun d => d.phase = decide (p.epoch % 2 = 0)) = some r := by
        simp [Option.filter, Dx.phase, he]
      have e2 : (some n).filter (fun d => d.phase = decide (p.epoch % 2 = 0)) = none := by
        simp only [Option.filter, Dx.phase, he, nep]
        rw [if_neg]; simp only [decide_eq_decide, decide_eq_true_eq]; omega
      rw [e1, e2]
    · refine ⟨.nxt, n, ?_, by omega⟩
      have e1 : (some n).filter (fun d => d.phase = decide (p.epoch % 2 = 0)) = some n := by
        simp [Option.filter, Dx.phase, he, nep]
      have e2 : (some r).filter (fun d => d.phase = decide (p.epoch % 2 = 0)) = none := by
        simp only [Option.filter, Dx.phase, he]
        rw [if_neg]; simp only [decide_eq_decide, decide_eq_true_eq]; omega
      rw [e1, e2]
  obtain ⟨s, d, hrx, hd⟩ := hrx
  intro hres
  unfold K.decrypt at hres
  rw [if_neg (by omega)] at hres
  unfold K.decryptShort at hres
  rw [hread] at hres
  simp only [hdec, hrx] at hres
  split at hres
  · rename_i d' e ho
    simp only at hres
    obtain rfl := Except.error.inj hres
    exact open_ok d hd d' ho
  · split at hres
    · rename_i e hm
      simp only at hres
      obtain rfl := Except.error.inj hres
      unfold K.maybeRespond at hm
      split at hm
      · unfold K.keyUpdateReceived at hm
        split at hm
        · cases hm
        · simp only at hm
          split at hm
          · rename_i e' hmu
            obtain rfl := Except.error.inj hm
            unfold K.maybeUpdateWrite at hmu
            split at hmu
            · cases hmu
            · split at hmu
              · split at hmu <;> cases hmu
              · cases hmu
          · split at hm <;> cases hm
      · cases hm
    · split at hres
      · rename_i k₂ hm _ k₁ e hc
        simp only at hres
        obtain rfl := Except.error.inj hres
        unfold K.checkOverlap at hc
        split at hc
        · split at hc
          · have := congrArg Prod.snd hc
            simp only at this
            split at this <;> cases this
          · cases hc
        · cases hc
      · cases hres

/-- A connection with read keys of epoch 3 that has received packet 300. -/
example : ∃ h r, Hist.Reached .aes128 h ∧ h.k.read = some r ∧ h.k.updTime = none ∧
    (r.epoch, 300) ∈ h.accepted ∧
    (h.k.decrypt ⟨4, 301, pnLen (some 300) 301⟩ 10).2.res ≠ .error .decrypt := by
  have hrun : (((Hist.init .aes128).run [.setWrite, .setRead 0, .recv ⟨3, 300, 2⟩ 0]).map
      fun h => decide (h.k.read = some ⟨.read, 3, 300, 301, 0, 2 ^ 52 - 1, 2048⟩ ∧
        h.k.updTime = none ∧ (3, 300) ∈ h.accepted)) = some true := by decide +kernel
  obtain ⟨h, hh, hp⟩ := Option.map_eq_some_iff.mp hrun
  obtain ⟨h1, h2, h3⟩ := of_decide_eq_true hp
  have hr := Hist.Reached.init.run hh
  exact ⟨h, _, hr, h1, h2, h3, C27_history_partial hr h1 h2 h3 (by decide) (by decide) rfl
    (by decide +kernel) (.inr rfl)⟩

/-- While old read keys are kept, numbers are recovered against the last packet that came with the
old keys.  The peer sends packets 300 (old keys), 301, 420 and 428 (new keys); all are accepted.
It then learns that 428 was received and sends 440 with a one byte number.  That authentic packet
fails to open. -/
theorem C27_stale_during_key_update :
    ∃ h : Hist, Hist.Reached .aes128 h ∧ (4, 428) ∈ h.accepted ∧ pnLen (some 428) 440 = 1 ∧
      (h.k.decrypt ⟨4, 440, pnLen (some 428) 440⟩ 2000).2.res = .error .decrypt := by
  have hrun : (((Hist.init .aes128).run [.setWrite, .setRead 0, .recv ⟨3, 300, 2⟩ 0,
      .recv ⟨4, 301, 1⟩ 1000, .recv ⟨4, 420, 1⟩ 1000, .recv ⟨4, 428, 1⟩ 1000]).map
      fun h => decide ((4, 428) ∈ h.accepted ∧ pnLen (some 428) 440 = 1 ∧
      (h.k.decrypt ⟨4, 440, pnLen (some 428) 440⟩ 2000).2.res = .error .decrypt)) = some true := by
    decide +kernel
  obtain ⟨h, hh, hp⟩ := Option.map_eq_some_iff.mp hrun
  exact ⟨h, Hist.Reached.init.run hh, of_decide_eq_true hp⟩

/-! ## C53: packet protection -/

/-- No two packets are protected with the same key and the same number. -/
theorem C53_nonce_unique {c : Cipher} {h : Hist} (hr : Hist.Reached c h) : h.sent.Nodup := by
  refine hr.inv.w.order.imp ?_
  intro a b hab e
  have := hab.2 (.inl (by rw [e]))
  rw [e] at this
  omega

/-- 1-RTT packet numbers increase from packet to packet, whichever key protects them (the record
has the newest packet first). -/
theorem C53_numbers_increase {c : Cipher} {h : Hist} (hr : Hist.Reached c h) :
    (h.sent.filter (fun x => 3 ≤ x.1)).Pairwise (fun new old => old.2 < new.2) := by
  rw [List.pairwise_filter]
  refine hr.inv.w.order.imp ?_
  intro a b hab _ hb
  exact hab.2 (.inr (by simpa using hb))

/-- So do 0-RTT packet numbers, and 1-RTT packet numbers carry on from them, as long as 0-RTT is
not rejected.  Missing: rejection, see `C53_numbers_restart_after_rejection`. -/
theorem C53_numbers_increase_0rtt_partial {c : Cipher} {h : Hist} (hr : Hist.Reached c h)
    (hrej : h.rejected = false) : h.sent.Pairwise (fun new old => old.2 < new.2) :=
  hr.inv.w.strict hrej

/-- Each write key is used no more often than its limit. -/
theorem C53_use_limit {c : Cipher} {h : Hist} (hr : Hist.Reached c h) (e : Nat) :
    (h.sent.filter (fun x => x.1 = e)).length ≤ limit .write c :=
  hr.inv.w.limits e

/-- A client that sends 0-RTT, then 1-RTT packets, and updates its keys. -/
example : ∃ h, Hist.Reached .aes128 h ∧ h.rejected = false ∧
    h.sent = [(4, 4), (3, 3), (3, 2), (1, 1), (1, 0)] := by
  have hrun : (((Hist.init .aes128).run [.setZero .write, .send 100, .send 100, .setWrite, .send 9,
      .setRead 0, .send 100, .initiate (some 3), .send 0]).map
      fun h => decide (h.rejected = false ∧ h.sent = [(4, 4), (3, 3), (3, 2), (1, 1), (1, 0)])) =
      some true := by decide +kernel
  obtain ⟨h, hh, hp⟩ := Option.map_eq_some_iff.mp hrun
  exact ⟨h, Hist.Reached.init.run hh, of_decide_eq_true hp⟩

/-- After 0-RTT is rejected packet numbers start again from 0, so that a number is used twice in
the application data space (RFC 9000 section 12.3 rules that out; the keys differ, so this is not
a repeated nonce). -/
theorem C53_numbers_restart_after_rejection :
    ∃ h, Hist.Reached .aes128 h ∧ h.sent = [(3, 0), (1, 0)] := by
  have hrun : (((Hist.init .aes128).run [.setZero .write, .send 100, .reject, .setWrite,
      .send 100]).map fun h => decide (h.sent = [(3, 0), (1, 0)])) = some true := by decide +kernel
  obtain ⟨h, hh, hp⟩ := Option.map_eq_some_iff.mp hrun
  exact ⟨h, Hist.Reached.init.run hh, of_decide_eq_true hp⟩

/-- The number of packets that fail to open is not held to the limit of the cipher: the limit is
counted per key, and a connection always has two read keys, each with its own count (RFC 9001
section 6.6 asks for the total across all keys). -/
theorem C53_forgery_limit_exceeded (c : Cipher) :
    ∃ h, Hist.Reached c h ∧ limit .read c < h.forged := by
  obtain ⟨h, h1, h2, h3⟩ := forge_many c (limit .read c) (Nat.le_refl _)
  obtain ⟨k', hs⟩ := forge_nxt h2
  refine ⟨_, h1.step (e := .recv ⟨6, 0, 1⟩ 0) trivial hs, ?_⟩
  show _ < h.forged + 1
  omega

/-- It is bounded by the limit times the number of read keys there have been: keys of epochs 1, 3
up to the current one, and the one to follow.  Missing: the limit for all keys together, see
`C53_forgery_limit_exceeded`. -/
theorem C53_forgery_bound_partial {c : Cipher} {h : Hist} (hr : Hist.Reached c h) :
    (h.k.read = none → h.forged ≤ limit .read c) ∧
    (∀ r, h.k.read = some r → h.forged ≤ r.epoch * limit .read c) := by
  refine ⟨fun h0 => ?_, fun r h0 => ?_⟩
  · have := hr.finv.off h0
    omega
  · obtain ⟨n, w, hn, _⟩ := hr.inv.r.some r h0
    have := (hr.finv.on r n h0 hn).2.2.2
    omega

/-- Two junk packets. -/
example : ∃ h r, Hist.Reached .chacha h ∧ h.k.read = some r ∧ r.epoch = 3 ∧ h.forged = 2 := by
  have hrun : (((Hist.init .chacha).run [.setWrite, .setRead 0, .recv ⟨3, 7, 1⟩ 0,
      .recv ⟨17, 3, 1⟩ 0, .recv ⟨20, 3, 1⟩ 0]).map
      fun h => decide (h.k.read = some ⟨.read, 3, 7, 8, 0, 2 ^ 36 - 2, 2048⟩ ∧ h.forged = 2)) =
      some true := by decide +kernel
  obtain ⟨h, hh, hp⟩ := Option.map_eq_some_iff.mp hrun
  obtain ⟨h1, h2⟩ := of_decide_eq_true hp
  exact ⟨h, _, Hist.Reached.init.run hh, h1, rfl, h2⟩

/-! ## C54: key updates -/

/-- The write keys are of the same generation as the read keys, or one ahead. -/
theorem C54_epochs_close {c : Cipher} {h : Hist} {r : Dx} (hr : Hist.Reached c h)
    (hread : h.k.read = some r) :
    ∃ w, h.k.write = some w ∧ (w.epoch = r.epoch ∨ w.epoch = r.epoch + 1) := by
  obtain ⟨n, w, _, hw, rd, _⟩ := hr.inv.r.some r hread
  exact ⟨w, hw, rd.wep⟩

/-- An endpoint that has opened a packet protected with keys of some generation protects
everything it sends from then on with keys at least as new. -/
theorem C54_update_answered {c : Cipher} {h : Hist} {k' : K} {b e ep pn : Nat}
    (hr : Hist.Reached c h) (hop : e ∈ h.opened) (hs : h.k.send b = .ok (k', ep, pn)) :
    e ≤ ep := by
  cases hread : h.k.read with
  | none =>
    have h1 := (hr.inv.r.none hread).2.2.2.2 e hop
    rcases K.send_ok hs with ⟨w, w', hw, _, rfl, _⟩ | ⟨z, z', _, hz, _, rfl, _⟩
    · have := (hr.inv.w.wkey w hw).2.1; omega
    · have := (hr.inv.w.zkey z hz).2.1; omega
  | some r =>
    obtain ⟨n, w, hn, hw, rd, _⟩ := hr.inv.r.some r hread
    rcases K.send_ok hs with ⟨w', w'', hw', _, rfl, _⟩ | ⟨z, z', hw', _⟩
    · rw [hw] at hw'
      obtain rfl := Option.some.inj hw'
      have := rd.wep
      cases hb : h.k.busy with
      | false => have := (rd.idle hb).2.2.2.2 e hop; omega
      | true => have := (rd.busy hb).2.2.2.1; have := rd.op3 e hop; omega
    · rw [hw] at hw'; cases hw'

/-- Keys are not updated again before the peer has been seen to use every earlier generation. -/
theorem C54_updates_wait {c : Cipher} {h : Hist} {w : Dx} (hr : Hist.Reached c h)
    (hw : h.k.write = some w) (e : Nat) (h3 : 3 < e) (he : e < w.epoch) : e ∈ h.opened := by
  cases hread : h.k.read with
  | none => have := hr.inv.first hread w hw; omega
  | some r =>
    obtain ⟨n, w', hn, hw', rd, _⟩ := hr.inv.r.some r hread
    rw [hw] at hw'
    obtain rfl := Option.some.inj hw'
    have := rd.wep
    exact rd.ops e h3 (by omega)

/-- The application can update keys only when a packet protected with the present keys has been
acknowledged (or when nothing has been, with the first keys). -/
theorem C54_update_after_ack {c : Cipher} {h : Hist} {k' : K} {la : Option Nat}
    (hr : Hist.Reached c h) (hi : h.k.initiate la = .ok k') :
    ∃ w w', h.k.write = some w ∧ k'.write = some w' ∧ w'.epoch = w.epoch + 1 ∧
      (∃ r, k'.read = some r ∧ r.epoch = w.epoch) ∧
      ((la = none ∧ w.epoch = 3) ∨ ∃ a, la = some a ∧ (w.epoch, a) ∈ h.sent) := by
  obtain ⟨w, r, hu, hw, hrd, he, hc, rfl⟩ := K.initiate_ok hi
  refine ⟨w, _, hw, rfl, rfl, ⟨r, hrd, he.symm⟩, ?_⟩
  unfold Dx.canUpdate at hc
  cases la with
  | none => exact .inl ⟨rfl, by simpa using hc⟩
  | some a =>
    simp only [decide_eq_true_eq] at hc
    exact .inr ⟨a, rfl, (hr.inv.w.wkey w hw).1.range a hc.1 hc.2⟩

/-- Every packet accepted with newer keys has a higher number than every packet accepted with the
keys just before.  Missing: keys two generations apart, see `C54_order_two_apart`. -/
theorem C54_order_partial {c : Cipher} {h : Hist} (hr : Hist.Reached c h) {x y : Nat × Nat}
    (hx : x ∈ h.accepted) (hy : y ∈ h.accepted) (h3 : 3 ≤ x.1) (hxy : x.1 + 1 = y.1) :
    x.2 < y.2 := by
  cases hread : h.k.read with
  | none => have := (hr.inv.r.none hread).2.2.2.1 x hx; omega
  | some r =>
    obtain ⟨n, w, hn, hw, rd, _⟩ := hr.inv.r.some r hread
    exact rd.ord x hx y hy h3 hxy

/-- An endpoint that updates its own keys, sees the peer answer, lets the old keys go and answers
another update. -/
example : ∃ h r w, Hist.Reached .aes256 h ∧ h.k.read = some r ∧ h.k.write = some w ∧
    r.epoch = 4 ∧ w.epoch = 5 ∧ h.opened = [5, 4, 3] ∧
    h.accepted = [(5, 6), (4, 5), (3, 2)] ∧ h.sent = [(5, 1), (3, 0)] := by
  have hrun : (((Hist.init .aes256).run [.setWrite, .setRead 0, .send 10, .recv ⟨3, 2, 1⟩ 100,
      .initiate (some 0), .recv ⟨4, 5, 1⟩ 100, .tick 100, .recv ⟨5, 6, 1⟩ 200, .send 10]).map
      fun h => decide (h.k.read.map (·.epoch) = some 4 ∧ h.k.write.map (·.epoch) = some 5 ∧
        h.opened = [5, 4, 3] ∧ h.accepted = [(5, 6), (4, 5), (3, 2)] ∧
        h.sent = [(5, 1), (3, 0)])) = some true := by decide +kernel
  obtain ⟨h, hh, hp⟩ := Option.map_eq_some_iff.mp hrun
  obtain ⟨h1, h2, h3, h4, h5⟩ := of_decide_eq_true hp
  obtain ⟨r, hr, e1⟩ := Option.map_eq_some_iff.mp h1
  obtain ⟨w, hw, e2⟩ := Option.map_eq_some_iff.mp h2
  exact ⟨h, r, w, Hist.Reached.init.run hh, hr, hw, e1, e2, h3, h4, h5⟩

/-- If all packets made with one generation of keys were turned away, the next generation is not
held to start above the one before: after packet 100, number 52 is accepted with keys two
generations newer. -/
theorem C54_order_two_apart :
    ∃ h, Hist.Reached .aes128 h ∧ (3, 100) ∈ h.accepted ∧ (5, 52) ∈ h.accepted := by
  have hrun : (((Hist.init .aes128).run [.setWrite, .setRead 0, .recv ⟨3, 100, 1⟩ 0,
      .recv ⟨4, 50, 1⟩ 10, .tick 10, .recv ⟨5, 52, 1⟩ 20]).map
      fun h => decide ((3, 100) ∈ h.accepted ∧ (5, 52) ∈ h.accepted)) = some true := by
    decide +kernel
  obtain ⟨h, hh, hp⟩ := Option.map_eq_some_iff.mp hrun
  exact ⟨h, Hist.Reached.init.run hh, of_decide_eq_true hp⟩

/-- A key update by the peer is accepted: an authentic packet made with the keys to follow, whose
number is above everything seen and can be recovered, is let through, if no earlier update is
being waited out and there are attempts left.  Missing: 0-RTT read keys that have not expired, see
`C54_update_with_0rtt_keys_panics`. -/
theorem C54_update_accepted_partial {c : Cipher} {h : Hist} {r n : Dx} {p : Wire} {t : Nat}
    (hr : Hist.Reached c h) (hread : h.k.read = some r) (hnext : h.k.readNext = some n)
    (hidle : h.k.updTime = none) (hep : p.epoch = r.epoch + 1) (hpn : r.stop ≤ p.pn)
    (hlen : 0 < p.len) (hwin : p.pn ≤ r.stop + 256 ^ p.len / 2) (hinv : n.inv ≠ 0) :
    (h.k.decrypt p t).2.res = .ok p.pn := by
  obtain ⟨n', w, hn, hw, rd, hz⟩ := hr.inv.r.some r hread
  rw [hnext] at hn
  obtain rfl := Option.some.inj hn
  have nep := rd.nep
  have rep := rd.rep
  have hb : h.k.busy = false := K.busy_of_none hidle
  have hpos : 0 < 256 ^ p.len / 2 := by
    obtain ⟨v, hv⟩ : ∃ v, p.len = v + 1 := ⟨p.len - 1, by omega⟩
    have : 0 < 256 ^ v := Nat.pow_pos (by decide)
    rw [hv, Nat.pow_succ]; omega
  have hdec : decodePn r.stop (truncate p.pn p.len) p.len = p.pn :=
    decodePn_near (by omega) hwin hlen
  obtain ⟨i1, i2, i3, i4, i5⟩ := rd.idle hb
  have hbel := rd.below hb
  have hrx : h.k.rx (p.epoch % 2 = 0) = some (.nxt, n) := by
    unfold K.rx
    rw [hread, hnext]
    have e1 : (some n).filter (fun d => d.phase = decide (p.epoch % 2 = 0)) = some n := by
      simp [Option.filter, Dx.phase, hep, nep]
    have e2 : (some r).filter (fun d => d.phase = decide (p.epoch % 2 = 0)) = none := by
      simp only [Option.filter, Dx.phase, hep]
      rw [if_neg]; simp only [decide_eq_decide, decide_eq_true_eq]; omega
    rw [e1, e2]
  have hopen : ∃ n', K.openWith n p p.pn = (n', none) ∧ n'.start = p.pn ∧ n'.stop = p.pn + 1 ∧
      n'.epoch = n.epoch := by
    unfold K.openWith Dx.invoked
    rw [if_neg hinv]
    simp only
    rw [if_pos ⟨by omega, trivial⟩]
    unfold Dx.used
    rw [if_neg (by show ¬ p.pn < n.minPn; omega)]
    rw [if_pos (show ({ n with inv := n.inv - 1 } : Dx).start = ({ n with inv := n.inv - 1 } : Dx).stop from i1)]
    exact ⟨_, rfl, rfl, by show max (p.pn + 1) n.stop = _; omega, rfl⟩
  obtain ⟨n', ho, s1, s2, s3⟩ := hopen
  have hresp : ∃ k₁, (h.k.setRx .nxt n').maybeRespond n' t = .ok k₁ ∧ k₁.read = some r ∧
      k₁.readNext = some n' := by
    unfold K.maybeRespond
    rw [if_pos (by unfold Dx.needsUpdate; simp only [decide_eq_true_eq]; omega)]
    unfold K.keyUpdateReceived
    rw [if_neg (by
      show ¬ (h.k.updEpoch.any fun e => decide (n'.epoch ≤ e)) = true
      rcases i3 with ⟨_, h1⟩ | h1
      · rw [h1]; simp
      · rw [h1]; simp only [Option.any_some, decide_eq_true_eq]; omega)]
    have hzr : h.k.hasZeroRead = false := by
      cases hh : h.k.hasZeroRead with
      | false => rfl
      | true => have := (hz hh).1; rw [hidle] at this; cases this
    have hmw : ∃ k₁ b, K.maybeUpdateWrite { h.k.setRx .nxt n' with updEpoch := some n'.epoch } =
        .ok (k₁, b) ∧ k₁.updTime = none ∧ k₁.hasZeroRead = false ∧ k₁.read = some r ∧
        k₁.readNext = some n' := by
      unfold K.maybeUpdateWrite
      simp only [K.setRx, hidle, hw, hread, Option.isSome_none, Bool.false_eq_true, if_false]
      split
      · exact ⟨_, _, rfl, rfl, hzr, rfl, rfl⟩
      · exact ⟨_, _, rfl, rfl, hzr, rfl, rfl⟩
    obtain ⟨k₁, b, m1, m2, m3, m4, m5⟩ := hmw
    simp only [m1]
    rw [if_pos (by rw [m2, m3]; rfl)]
    exact ⟨_, rfl, m4, m5⟩
  obtain ⟨k₁, hm, k1, k2⟩ := hresp
  have hchk : k₁.checkOverlap.2 = none := by
    rw [K.checkOverlap_eq k1 k2]
    split
    · obtain ⟨_, _, _, _, hc⟩ := Dx.continuation_facts n' r
      rcases hc with hc | hc | hc
      · simp only [hc.2.2.2, if_true]
      · omega
      · simp only [hc.2.2.2, if_true]
    · rfl
  unfold K.decrypt
  rw [if_neg (by omega)]
  unfold K.decryptShort
  rw [hread]
  simp only [hdec, hrx, ho, hm]
  generalize k₁.checkOverlap = x at hchk
  obtain ⟨a, b⟩ := x
  simp only at hchk
  subst hchk
  rfl

/-- The hypotheses in a run: packet 9 of the next generation after packet 2. -/
example : ∃ h r n, Hist.Reached .aes256 h ∧ h.k.read = some r ∧ h.k.readNext = some n ∧
    h.k.updTime = none ∧ r.epoch = 3 ∧ r.stop = 3 ∧ (h.k.decrypt ⟨4, 9, 1⟩ 100).2.res = .ok 9 := by
  have hrun : (((Hist.init .aes256).run [.setWrite, .setRead 0, .recv ⟨3, 2, 1⟩ 100]).map
      fun h => decide (h.k.read = some ⟨.read, 3, 2, 3, 0, 2 ^ 64 - 2, 2048⟩ ∧
        h.k.readNext = some ⟨.read, 4, 0, 0, 0, 2 ^ 64 - 1, 2048⟩ ∧ h.k.updTime = none)) =
      some true := by decide +kernel
  obtain ⟨h, hh, hp⟩ := Option.map_eq_some_iff.mp hrun
  obtain ⟨h1, h2, h3⟩ := of_decide_eq_true hp
  have hr := Hist.Reached.init.run hh
  exact ⟨h, _, _, hr, h1, h2, h3, rfl, rfl, C54_update_accepted_partial hr h1 h2 h3 rfl
    (by decide) (by decide) (by decide) (by decide)⟩

/-- A packet delayed across a key update stops the connection from receiving: the peer sends 7
and 8 with old keys and 9 with new ones, and 8 arrives last.  Packet 8 is authentic and has never
been seen, but is turned away, and from then on, whatever else happens, no packet at all is
accepted until the time to drop the old keys has come. -/
theorem C54_reordering_blocks :
    ∃ h, Hist.Reached .aes128 h ∧ h.accepted = [(4, 9), (3, 7)] ∧ h.opened = [3, 4, 3] ∧
      ∀ es h', (∀ e ∈ es, ∀ now, e = .tick now → now < 1000) → h.run es = some h' →
        h'.accepted = h.accepted := by
  have hrun : (((Hist.init .aes128).run [.setWrite, .setRead 0, .recv ⟨3, 7, 1⟩ 0,
      .recv ⟨4, 9, 1⟩ 1000, .recv ⟨3, 8, 1⟩ 1000]).map
      fun h => decide (h.accepted = [(4, 9), (3, 7)] ∧ h.opened = [3, 4, 3] ∧
        h.k.zero = none ∧ h.k.updTime = some 1000 ∧ h.k.write ≠ none ∧
        h.k.read = some ⟨.read, 3, 7, 9, 0, 2 ^ 52 - 2, 2048⟩ ∧
        h.k.readNext = some ⟨.read, 4, 8, 10, 9, 2 ^ 52 - 1, 2048⟩)) = some true := by
    decide +kernel
  obtain ⟨h, hh, hp⟩ := Option.map_eq_some_iff.mp hrun
  obtain ⟨h1, h2, h3, h4, h5, h6, h7⟩ := of_decide_eq_true hp
  refine ⟨h, Hist.Reached.init.run hh, h1, h2, fun es h' hb hr => ?_⟩
  refine Stuck.run (T := 1000) ⟨h3, h4, h5, _, _, h6, h7, by decide, by decide⟩ ?_ hr
  intro e he
  cases e with
  | tick now => exact hb _ he now rfl
  | _ => trivial

/-- The run can go on: the same packet numbered 10 that would have been let through is not. -/
example : ((Hist.init .aes128).run [.setWrite, .setRead 0, .recv ⟨3, 7, 1⟩ 0,
      .recv ⟨4, 9, 1⟩ 1000, .recv ⟨3, 8, 1⟩ 1000, .tick 5, .recv ⟨4, 10, 1⟩ 1000]).map
      (fun h => h.accepted) = some [(4, 9), (3, 7)] ∧
    ((Hist.init .aes128).run [.setWrite, .setRead 0, .recv ⟨3, 7, 1⟩ 0,
      .recv ⟨4, 9, 1⟩ 1000, .tick 5, .recv ⟨4, 10, 1⟩ 1000]).map
      (fun h => h.accepted) = some [(4, 10), (4, 9), (3, 7)] := by decide +kernel

/-- Packets delayed across a key update are accepted if their number is below one already seen
with the old keys.  Missing: numbers above, see `C54_reordering_blocks`. -/
theorem C54_old_packet_accepted_partial {c : Cipher} {h : Hist} {r n : Dx} {p : Wire} {t : Nat}
    (hr : Hist.Reached c h) (hread : h.k.read = some r) (hnext : h.k.readNext = some n)
    (hbusy : h.k.updTime ≠ none) (hep : p.epoch = r.epoch) (hmin : r.minPn ≤ p.pn)
    (hpn : p.pn < r.stop) (hns : n.start < n.stop → r.stop ≤ n.start) (hlen : 0 < p.len)
    (hwin : r.stop < p.pn + 256 ^ p.len / 2) (hinv : r.inv ≠ 0) :
    (h.k.decrypt p t).2.res = .ok p.pn := by
  obtain ⟨n', w, hn, hw, rd, hz⟩ := hr.inv.r.some r hread
  rw [hnext] at hn
  obtain rfl := Option.some.inj hn
  have nep := rd.nep
  have rep := rd.rep
  have hdec : decodePn r.stop (truncate p.pn p.len) p.len = p.pn :=
    decodePn_near (by omega) (by omega) hlen
  have hrx : h.k.rx (p.epoch % 2 = 0) = some (.cur, r) := by
    unfold K.rx
    rw [hread, hnext]
    have e1 : (some r).filter (fun d => d.phase = decide (p.epoch % 2 = 0)) = some r := by
      simp [Option.filter, Dx.phase, hep]
    have e2 : (some n).filter (fun d => d.phase = decide (p.epoch % 2 = 0)) = none := by
      simp only [Option.filter, Dx.phase, hep, nep]
      rw [if_neg]; simp only [decide_eq_decide, decide_eq_true_eq]; omega
    rw [e1, e2]
  have hopen : ∃ r', K.openWith r p p.pn = (r', none) ∧ r'.stop = r.stop ∧ r'.epoch = r.epoch := by
    unfold K.openWith Dx.invoked
    rw [if_neg hinv]
    simp only
    rw [if_pos ⟨by omega, trivial⟩]
    unfold Dx.used
    rw [if_neg (by show ¬ p.pn < r.minPn; omega)]
    refine ⟨_, rfl, ?_, ?_⟩
    · simp only
      split
      · show max (p.pn + 1) r.stop = _; omega
      · show max (p.pn + 1) r.stop = _; omega
    · simp only
      split <;> rfl
  obtain ⟨r', ho, s1, s2⟩ := hopen
  have hresp : (h.k.setRx .cur r').maybeRespond r' t = .ok (h.k.setRx .cur r') := by
    apply K.respond_old
    show r'.epoch = 3 ∨ ∃ e, h.k.updEpoch = some e ∧ r'.epoch ≤ e
    cases hb : h.k.busy with
    | false =>
      rcases (rd.idle hb).2.2.1 with hx | hx
      · exact .inl (by omega)
      · exact .inr ⟨_, hx, by omega⟩
    | true => exact .inr ⟨_, (rd.busy hb).2.2.1, by omega⟩
  have hchk : (h.k.setRx .cur r').checkOverlap.2 = none := by
    rw [K.checkOverlap_eq (k := h.k.setRx .cur r') (r := r') (n := n) rfl hnext]
    split
    · obtain ⟨_, _, _, _, hc⟩ := Dx.continuation_facts n r'
      rcases hc with hc | hc | hc
      · simp only [hc.2.2.2, if_true]
      · have := hns hc.1; omega
      · simp only [hc.2.2.2, if_true]
    · rfl
  unfold K.decrypt
  rw [if_neg (by omega)]
  unfold K.decryptShort
  rw [hread]
  simp only [hdec, hrx, ho, hresp]
  generalize (h.k.setRx .cur r').checkOverlap = x at hchk
  obtain ⟨a, b⟩ := x
  simp only at hchk
  subst hchk
  rfl

/-- The hypotheses in a run: packets 5 and 7, an update with packet 9, then packet 6. -/
example : ∃ h r n, Hist.Reached .aes128 h ∧ h.k.read = some r ∧ h.k.readNext = some n ∧
    h.k.updTime ≠ none ∧ r.stop = 8 ∧ (h.k.decrypt ⟨3, 6, 1⟩ 1000).2.res = .ok 6 := by
  have hrun : (((Hist.init .aes128).run [.setWrite, .setRead 0, .recv ⟨3, 5, 1⟩ 0,
      .recv ⟨3, 7, 1⟩ 0, .recv ⟨4, 9, 1⟩ 1000]).map
      fun h => decide (h.k.read = some ⟨.read, 3, 5, 8, 0, 2 ^ 52 - 2, 2048⟩ ∧
        h.k.readNext = some ⟨.read, 4, 8, 10, 8, 2 ^ 52 - 1, 2048⟩ ∧ h.k.updTime ≠ none)) =
      some true := by decide +kernel
  obtain ⟨h, hh, hp⟩ := Option.map_eq_some_iff.mp hrun
  obtain ⟨h1, h2, h3⟩ := of_decide_eq_true hp
  have hr := Hist.Reached.init.run hh
  exact ⟨h, _, _, hr, h1, h2, h3, rfl, C54_old_packet_accepted_partial hr h1 h2 h3 rfl
    (by decide) (by decide) (by decide) (by decide) (by decide) (by decide)⟩

/-- A server that still has 0-RTT read keys when a client updates its keys fails an assertion
(crypto.rs:1332; a debug build aborts). -/
theorem C54_update_with_0rtt_keys_panics :
    ∃ h, Hist.Reached .aes128 h ∧ h.step (.recv ⟨4, 9, 1⟩ 1000) = .error .panic := by
  have hrun : (((Hist.init .aes128).run [.setWrite, .setZero .read, .recv ⟨1, 0, 1⟩ 0,
      .setRead 500, .recv ⟨3, 7, 1⟩ 0]).map
      fun h => decide (h.step (.recv ⟨4, 9, 1⟩ 1000) = .error .panic)) = some true := by
    decide +kernel
  obtain ⟨h, hh, hp⟩ := Option.map_eq_some_iff.mp hrun
  exact ⟨h, Hist.Reached.init.run hh, of_decide_eq_true hp⟩

/-- Without 0-RTT read keys, the only error that ends the connection is that a key has been used
up (or all but used up before there are read keys).  Missing: 0-RTT read keys, see `C54_update_with_0rtt_keys_panics`; and sending when the keys
are about to be used up while the old read keys are still kept, which fails the same assertion. -/
theorem C54_no_panic_partial {c : Cipher} {h : Hist} {e : Ev} {err : KErr}
    (hr : Hist.Reached c h) (hl : h.Legal e) (hz : h.k.hasZeroRead = false)
    (hsend : ∀ b, e = .send b → h.k.updTime = none ∨ err ≠ .panic)
    (hs : h.step e = .error err) :
    err = .exhausted ∨ (err = .internal ∧ h.k.read = none) := by
  cases e with
  | setZero d => cases hs
  | reject =>
    simp only [Hist.step] at hs
    split at hs
    · rename_i e' hd
      unfold K.discardZero at hd
      rw [if_neg (by rw [show h.k.read = none from hl]; simp)] at hd
      cases hd
    · cases hs
  | setWrite =>
    simp only [Hist.step] at hs
    split at hs
    · rename_i e' hd
      unfold K.setWrite at hd
      rw [if_neg (by rw [show h.k.write = none from hl]; simp)] at hd
      simp only at hd
      split at hd
      · split at hd
        · rw [if_pos (by rw [Dx.continuation_new])] at hd; cases hd
        · cases hd
      · cases hd
    · cases hs
  | setRead t =>
    simp only [Hist.step] at hs
    split at hs
    · rename_i e' hd
      unfold K.setRead at hd
      rw [if_neg (by
        rintro (h1 | h1)
        · exact hl.1 (Option.isNone_iff_eq_none.mp h1)
        · rw [hl.2] at h1; cases h1)] at hd
      simp only at hd
      split at hd
      · split at hd
        · rw [if_pos (by rw [Dx.continuation_new])] at hd; cases hd
        · cases hd
      · cases hd
    · cases hs
  | send b =>
    simp only [Hist.step] at hs
    split at hs
    · cases hs
    · rename_i e' hne hd
      obtain rfl := Except.error.inj hs
      unfold K.send at hd
      split at hd
      · rename_i w hw
        split at hd
        · rename_i e₁ he
          obtain rfl := Except.error.inj hd
          exact .inl (Dx.encrypt_err (hr.inv.w.wkey w hw).1.min he)
        · rename_i w' he
          split at hd
          · rename_i e₁ ha
            obtain rfl := Except.error.inj hd
            unfold K.autoUpdate at ha
            simp only at ha
            split at ha
            · split at ha
              · rename_i e₂ hm
                obtain rfl := Except.error.inj ha
                unfold K.maybeUpdateWrite at hm
                split at hm
                · rename_i hu
                  obtain rfl := Except.error.inj hm
                  rcases hsend b rfl with hx | hx
                  · have hu : h.k.updTime.isSome = true := hu
                    rw [hx] at hu; cases hu
                  · exact absurd rfl hx
                · split at hm
                  · split at hm <;> cases hm
                  · rename_i hno
                    obtain rfl := Except.error.inj hm
                    cases hread : h.k.read with
                    | some r => exact absurd hread (hno w' r rfl)
                    | none => exact .inr ⟨rfl, rfl⟩
              · cases ha
              · exact .inl (Except.error.inj ha).symm
            · cases ha
          · cases hd
      · split at hd
        · exact absurd (Except.error.inj hd).symm hne
        · rename_i z hzz
          split at hd
          · rename_i e₁ he
            obtain rfl := Except.error.inj hd
            exact .inl (Dx.encrypt_err (hr.inv.w.zkey z hzz).1.min he)
          · cases hd
    · cases hs
  | recv p t =>
    simp only [Hist.step] at hs
    split at hs
    · cases hs
    · rename_i k o e' hd
      split at hs
      · rename_i hf
        obtain rfl := Except.error.inj hs
        have := hr.inv.r.no_panic hz hd
        cases e' with
        | exhausted => exact .inl rfl
        | panic => exact absurd rfl this
        | _ => cases hf
      · cases hs
  | initiate la =>
    simp only [Hist.step] at hs
    split at hs
    · cases hs
    · rename_i e' hne hd
      obtain rfl := Except.error.inj hs
      exfalso
      cases hread : h.k.read with
      | none => exact hl hread
      | some r =>
        obtain ⟨n, w, hn, hw, rd, _⟩ := hr.inv.r.some r hread
        unfold K.initiate at hd
        rw [hw] at hd
        simp only at hd
        split at hd
        · rename_i hc
          split at hd
          · rename_i e₁ hm
            unfold K.maybeUpdateWrite at hm
            rw [if_neg (by have := hc.2; cases hk : h.k.updTime <;> simp_all), hw, hread] at hm
            simp only at hm
            split at hm <;> cases hm
          · cases hd
          · exact hne (Except.error.inj hd).symm
        · exact hne (Except.error.inj hd).symm
    · cases hs
  | tick now =>
    simp only [Hist.step] at hs
    split at hs
    · rename_i e' hd
      exfalso
      unfold K.checkKeyUpdate at hd
      split at hd
      · cases hd
      · rename_i tt ht
        split at hd
        · cases hd
        · split at hd
          · cases hd
          · split at hd
            · rename_i hn
              cases hread : h.k.read with
              | none => rw [(hr.inv.r.none hread).2.1] at ht; cases ht
              | some r =>
                obtain ⟨n, w, hn', _⟩ := hr.inv.r.some r hread
                rw [hn] at hn'; cases hn'
            · cases hd
    · cases hs

end Neqo.Keys
