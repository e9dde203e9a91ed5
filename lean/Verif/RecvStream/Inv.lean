import Verif.RecvStream.Spec
import Verif.RecvStream.Discard
import Verif.Flow.Lemmas
import Mathlib.Tactic.ByContra

/-! The invariant of receive streams and its preservation. -/
namespace Neqo.RecvS
open Neqo.Codec (Bytes)
open Neqo.Flow
open Neqo.Recv

/-! ## Flow-control helpers -/

theorem retireData_ok {n : Nat} {fc ses fc' ses' : RFc}
    (h : retireData n fc ses = .ok (fc', ses')) :
    Adj fc fc' 0 n ∧ Adj ses ses' 0 n ∧
    (0 < n → fc.retired + n ≤ fc.consumed ∧ ses.retired + n ≤ ses.consumed) := by
  unfold retireData at h
  split at h
  · simp only [Except.bind_eq_ok, Except.pure_eq_ok] at h
    obtain ⟨a, ha, b, hb, h⟩ := h
    cases h
    have h1 := addRetired_ok ha
    have h2 := addRetired_ok hb
    exact ⟨h1.1, h2.1, fun _ => ⟨h1.2, h2.2⟩⟩
  · rename_i hn
    obtain rfl : n = 0 := by omega
    cases h
    exact ⟨Adj.refl _, Adj.refl _, by omega⟩

theorem consumeCore_ok {fc ses fc' ses' : RFc} {known retire fin : Bool} {consumed : Nat}
    (h : consumeCore fc ses known retire consumed fin = .ok (fc', ses')) :
    finalSizeOk fin known consumed fc.consumed = true ∧
    ∃ dc dr, Adj fc fc' dc dr ∧ Adj ses ses' dc dr ∧
      fc.consumed + dc = max fc.consumed consumed ∧
      (0 < dc → consumed ≤ fc.maxAllowed) ∧ ses.consumed + dc ≤ ses.maxAllowed ∧
      dr = if retire then fc.consumed + dc - fc.retired else 0 := by
  unfold consumeCore at h
  split at h
  · rename_i hf
    refine ⟨hf, ?_⟩
    simp only [Except.bind_eq_ok] at h
    obtain ⟨⟨fc1, k⟩, g1, ses1, g2, h⟩ := h
    have h1 := setConsumed_ok g1
    have h2 := consume_ok (n := k) g2
    clear g1 g2
    simp only at h
    have hmax : fc.consumed + k = max fc.consumed consumed := by rw [← h1.2.1, h1.1.con]
    cases retire with
    | true =>
      have h3 := retireData_ok h
      refine ⟨k, fc.consumed + k - fc.retired, ?_, ?_, hmax, h1.2.2, h2.2, by simp⟩
      · have := h1.1.trans h3.1
        simp only [h1.1.con, h1.1.ret, Nat.add_zero, Nat.zero_add] at this
        exact this
      · have := h2.1.trans h3.2.1
        simp only [h1.1.con, h1.1.ret, Nat.add_zero, Nat.zero_add] at this
        exact this
    | false =>
      cases h
      exact ⟨k, 0, h1.1, h2.1, hmax, h1.2.2, h2.2, rfl⟩
  · cases h

/-! ## Buffers -/

theorem insertRange_retired {s s' : Rx} {k : Nat} {v : Bytes} (h : s.insertRange k v = .ok s') :
    s'.retired = s.retired := by
  rw [insertRange_ok h]

theorem addRange_retired {s s' : Rx} {a b : Nat} {c : Bytes} {d : Option (Nat × Nat)}
    (h : s.addRange a b c d = .ok s') : s'.retired = s.retired := by
  unfold Rx.addRange at h
  simp only at h
  split at h
  · cases h; rfl
  · split at h
    · cases h; rfl
    · exact (insertRange_retired h).trans rfl

theorem inboundFrame_retired {s s' : Rx} {start : Nat} {data : Bytes}
    (h : s.inboundFrame start data = .ok s') : s'.retired = s.retired := by
  unfold Rx.inboundFrame at h
  simp only at h
  repeat' split at h
  all_goals first
    | (cases h; rfl)
    | exact (insertRange_retired h).trans rfl
    | exact addRange_retired h

theorem bufferedGo_spec {r : Nat} {m : SMap Bytes} (h : ∀ e ∈ m, e.2 ≠ [] ∧ r < rend e) :
    ∃ n, bufferedGo r m = .ok n ∧ (n = 0 ↔ m = []) := by
  induction m with
  | nil => exact ⟨0, rfl, by simp⟩
  | cons e m ih =>
    obtain ⟨a, d⟩ := e
    obtain ⟨n, hn, _⟩ := ih (fun e he => h e (by simp [he]))
    have := (h (a, d) (by simp)).2
    have hd := List.length_pos_iff.mpr (h (a, d) (by simp)).1
    simp only [rend] at this hd
    unfold bufferedGo
    rw [if_neg (by omega), hn]
    exact ⟨_, rfl, ⟨fun h0 => by omega, fun h0 => by simp at h0⟩⟩

theorem buffered_spec {R : Rcv} {b : Rx} (h : Inv R b) :
    ∃ n, buffered b = .ok n ∧ (n = 0 ↔ b.ranges = []) := bufferedGo_spec h.live

/-- Bytes carried by a list of frames. -/
def carried (fr : List (Nat × Bytes)) : Rcv := fun i b =>
  ∃ off d, (off, d) ∈ fr ∧ off ≤ i ∧ d[i - off]? = some b

theorem carried_cons (fr : List (Nat × Bytes)) (off : Nat) (d : Bytes) :
    carried ((off, d) :: fr) = (carried fr).add off d := by
  funext i b
  apply propext
  unfold carried Rcv.add
  constructor
  · rintro ⟨o, x, hm, h1, h2⟩
    rcases List.mem_cons.mp hm with h | h
    · cases h; exact .inr ⟨h1, h2⟩
    · exact .inl ⟨o, x, h, h1, h2⟩
  · rintro (⟨o, x, hm, h1, h2⟩ | ⟨h1, h2⟩)
    · exact ⟨o, x, by simp [hm], h1, h2⟩
    · exact ⟨off, d, by simp, h1, h2⟩

theorem add_upTo_pos {R : Rcv} {off n : Nat} {d : Bytes} :
    (R.add off d).upTo n = (R.upTo n).add off (d.take (n - off)) := by
  funext i b
  apply propext
  unfold Rcv.upTo Rcv.add
  constructor
  · rintro ⟨h | ⟨h1, h2⟩, h3⟩
    · exact .inl ⟨h, h3⟩
    · exact .inr ⟨h1, by rw [List.getElem?_take, if_pos (by omega)]; exact h2⟩
  · rintro (⟨h, h3⟩ | ⟨h1, h2⟩)
    · exact ⟨.inl h, h3⟩
    · rw [List.getElem?_take] at h2
      split at h2
      · exact ⟨.inr ⟨h1, h2⟩, by omega⟩
      · cases h2

theorem add_upTo_zero {R : Rcv} {off n : Nat} {d : Bytes} (h : n ≤ off) :
    (R.add off d).upTo n = R.upTo n := by
  rw [add_upTo_pos, show n - off = 0 by omega]
  funext i b
  apply propext
  simp [Rcv.add]

theorem upTo_upTo {R : Rcv} {m n : Nat} (h : n ≤ m) : (R.upTo m).upTo n = R.upTo n := by
  funext i b
  apply propext
  unfold Rcv.upTo
  constructor
  · rintro ⟨⟨h1, _⟩, h3⟩; exact ⟨h1, h3⟩
  · rintro ⟨h1, h3⟩; exact ⟨⟨h1, by omega⟩, h3⟩

/-! ## The invariant -/

/-- The flow-control counters agree with the history. -/
structure FcRel (hi : Nat) (adv : List Nat) (fc : RFc) : Prop where
  con : fc.consumed = hi
  adv : adv.head? = some fc.maxAllowed

/-- A final size has been announced, consistently. -/
structure Ends (hi : Nat) (ends : List Nat) : Prop where
  ne : ends ≠ []
  eq : ∀ e ∈ ends, e = hi

def StOk (adv : List Nat) (frames : List (Nat × Bytes)) (ends : List Nat) (hi : Nat)
    (delivered : Bytes) (finSeen : Bool) : State → Prop
  | .recv fc buf => FcRel hi adv fc ∧ Inv (carried frames) buf ∧ delivered.length = buf.retired ∧
      fc.retired = buf.retired ∧ finSeen = false ∧ ends = []
  | .sizeKnown fc buf => FcRel hi adv fc ∧ Inv (carried frames) buf ∧
      delivered.length = buf.retired ∧ fc.retired = buf.retired ∧ finSeen = false ∧ Ends hi ends ∧
      ∃ i, i < hi ∧ ¬ ∃ b, carried frames i b
  | .dataRecvd fc buf => FcRel hi adv fc ∧ Inv (carried frames) buf ∧
      delivered.length = buf.retired ∧ fc.retired = buf.retired ∧ finSeen = false ∧ Ends hi ends ∧
      ∀ i, i < hi → ∃ b, carried frames i b
  | .sizeKnownAt fc buf _ fs rel => FcRel hi adv fc ∧ Inv ((carried frames).upTo rel) buf ∧
      delivered.length = buf.retired ∧ buf.retired < rel ∧ rel ≤ hi ∧ fs = hi ∧
      fc.retired + (rel - buf.retired) = hi ∧ finSeen = false ∧ Ends hi ends
  | .abortReading fc fsr _ _ _ _ => FcRel hi adv fc ∧ fc.retired = hi ∧ finSeen = false ∧
      if fsr then Ends hi ends else ends = []
  | .waitForReset fc _ _ => FcRel hi adv fc ∧ fc.retired = hi ∧ finSeen = false
  | .dataRead _ _ => finSeen = true → delivered.length = hi ∧ Ends hi ends
  | .resetRecvd _ _ => finSeen = false

structure StrOk (t : Tr) : Prop where
  ok : Ok (carried t.frames) 0 t.delivered
  top : ∀ i b, carried t.frames i b → i < t.hi
  st : StOk t.advertised t.frames t.ends t.hi t.delivered t.finSeen t.st

theorem StrOk.len {t : Tr} (h : StrOk t) : t.delivered.length ≤ t.hi := by
  by_contra hc
  have hlt : t.hi < t.delivered.length := by omega
  have := h.top _ _ (h.ok t.hi _ (List.getElem?_eq_getElem hlt))
  omega

theorem strOk_new (m : Nat) : StrOk (Tr.new m) := by
  refine ⟨by intro i b h; simp [Tr.new] at h, ?_, ?_⟩
  · rintro i b ⟨o, d, h, _⟩; simp [Tr.new] at h
  · have : carried [] = fun _ _ => False := by
      funext i b; simp [carried]
    simp only [Tr.new, State.new, StOk, this]
    exact ⟨⟨rfl, rfl⟩, inv_init, rfl, rfl, trivial, trivial⟩

/-- What one step does to the connection's counters. -/
def Acct (t t' : Tr) (ses ses' : RFc) : Prop :=
  ∃ dc dr, Adj ses ses' dc dr ∧ t'.hi = t.hi + dc ∧ t.outstanding + dc = t'.outstanding + dr ∧
    (0 < dc → ses.consumed + dc ≤ ses.maxAllowed ∧
      ∀ l, t.advertised.head? = some l → t'.hi ≤ l)

/-! ## STREAM frames -/

theorem finalSizeOk_fin_unknown {c f : Nat} (h : finalSizeOk true false c f = true) : f ≤ c := by
  simpa [finalSizeOk] using h

theorem finalSizeOk_known {fin : Bool} {c f : Nat} (h : finalSizeOk fin true c f = true) :
    c ≤ f ∧ (fin = true → c = f) := by
  cases fin <;> simp [finalSizeOk] at h <;> simp <;> omega

theorem top_add {fr : List (Nat × Bytes)} {hi off : Nat} {d : Bytes}
    (h : ∀ i b, carried fr i b → i < hi) :
    ∀ i b, carried ((off, d) :: fr) i b → i < max hi (off + d.length) := by
  intro i b hb
  rw [carried_cons] at hb
  rcases hb with hb | ⟨h1, h2⟩
  · have := h i b hb; omega
  · have := (List.getElem?_eq_some_iff.mp h2).1; omega

theorem ok_add {fr : List (Nat × Bytes)} {off : Nat} {d x : Bytes}
    (h : Ok (carried fr) 0 x) : Ok (carried ((off, d) :: fr)) 0 x := by
  rw [carried_cons]; exact h.mono (fun i b hb => .inl hb)

theorem all_carried {R : Rcv} {buf : Rx} (h : Inv R buf) {hi : Nat}
    (heq : hi = buf.retired + buf.bytesReady) : ∀ i, i < hi → ∃ b, R i b := by
  intro i hi
  by_cases h1 : i < buf.retired
  · exact h.past i h1
  · exact (bytesReady_spec h).1 i (by omega) (by omega)

theorem some_gap {R : Rcv} {buf : Rx} (h : Inv R buf) {hi : Nat} (hle : buf.retired ≤ hi)
    (htop : ∀ i b, R i b → i < hi) (hne : ¬ hi = buf.retired + buf.bytesReady) :
    ∃ i, i < hi ∧ ¬ ∃ b, R i b := by
  obtain ⟨h1, h2⟩ := bytesReady_spec h
  refine ⟨_, ?_, h2⟩
  by_contra hc
  obtain ⟨b, hb⟩ := h1 hi hle (by omega)
  exact absurd (htop _ _ hb) (by omega)

theorem ends_add {hi e : Nat} {ends : List Nat} {fin : Bool} (h : Ends hi ends) (hle : e ≤ hi)
    (hf : fin = true → e = hi) : Ends (max hi e) (if fin then e :: ends else ends) := by
  rw [Nat.max_eq_left hle]
  cases fin with
  | true =>
    refine ⟨by simp, fun x hx => ?_⟩
    rcases List.mem_cons.mp hx with rfl | hx
    · exact hf rfl
    · exact h.eq x hx
  | false => exact h

theorem ends_add' {hi e : Nat} {ends : List Nat} (h : Ends hi ends) (he : e = hi) :
    Ends e (e :: ends) := by
  subst he
  refine ⟨by simp, fun x hx => ?_⟩
  rcases List.mem_cons.mp hx with rfl | hx
  · rfl
  · exact h.eq x hx

theorem lim_acct {adv : List Nat} {m hi e dc : Nat} (hadv : adv.head? = some m)
    (hlim : 0 < dc → e ≤ m) (hp : 0 < dc) (hmax : hi + dc = max hi e) :
    ∀ l, adv.head? = some l → max hi e ≤ l := by
  intro l hl
  rw [hadv] at hl
  cases hl
  have := hlim hp
  omega

theorem frame_ok {t t' : Tr} {ses ses' : RFc} {fin : Bool} {off : Nat} {d : Bytes} {o : Out}
    (h : StrOk t) (hs : t.step ses (.frame fin off d) = .ok (t', ses', o)) :
    StrOk t' ∧ Acct t t' ses ses' := by
  have hlen := h.len
  obtain ⟨st, adv, frames, ends, hi, delivered, finSeen⟩ := t
  obtain ⟨hok, htop, hst⟩ := h
  simp only at hok htop hst hlen
  simp only [Tr.step, Except.bind_eq_ok, Except.pure_eq_ok] at hs
  obtain ⟨⟨st2, ses2, evs⟩, hin, hs⟩ := hs
  simp only [State.inboundFrame, Except.bind_eq_ok, Except.pure_eq_ok] at hin
  obtain ⟨⟨st1, ses1⟩, hc, st2', hd, hin⟩ := hin
  cases hin
  have htop' := top_add (off := off) (d := d) htop
  have hok' := ok_add (off := off) (d := d) hok
  cases st with
  | recv fc buf =>
    simp only [Tr.note, Tr.noteFrame, State.isEnded, Bool.false_eq_true, if_false] at hs
    simp only [State.consumeData, Except.bind_eq_ok, Except.pure_eq_ok] at hc
    obtain ⟨⟨fc', ses'⟩, hc, h1⟩ := hc
    cases h1
    obtain ⟨hf, dc, dr, ha1, ha2, hmax, hlim, hses, hdr⟩ := consumeCore_ok hc
    obtain ⟨⟨hcon, hadv⟩, hinv, hdl, hret, hfs, hend⟩ := hst
    simp only [Bool.false_eq_true, if_false] at hdr
    subst hdr
    have hr' := ha1.ret
    have hc' := ha1.con
    simp only [State.deliver, Except.bind_eq_ok] at hd
    obtain ⟨buf', hb, hd⟩ := hd
    have hbr := inboundFrame_retired hb
    have hinv' := inboundFrame_inv hinv hb
    rw [← carried_cons] at hinv'
    have hrel : FcRel (max hi (off + d.length)) adv fc' := ⟨by omega, by rw [ha1.all]; exact hadv⟩
    cases fin with
    | true =>
      have hge := finalSizeOk_fin_unknown hf
      have hends : Ends (max hi (off + d.length)) ((off + d.length) :: ends) :=
        ⟨by simp, by simp [hend]; omega⟩
      simp only [if_true] at hd hs
      split at hd
      · cases hd
        cases hs
        exact ⟨⟨hok', htop', hrel, hinv', by simp only; omega, by omega, hfs, hends,
          all_carried hinv' (by simp only; omega)⟩, dc, 0, ha2, by simp only; omega,
          by simp only [Tr.outstanding]; omega, fun hp => ⟨hses, lim_acct hadv hlim hp (by omega)⟩⟩
      · cases hd
        cases hs
        exact ⟨⟨hok', htop', hrel, hinv', by simp only; omega, by omega, hfs, hends,
          some_gap hinv' (by simp only; omega) htop' (by simp only; omega)⟩,
          dc, 0, ha2, by simp only; omega, by simp only [Tr.outstanding]; omega, fun hp => ⟨hses, lim_acct hadv hlim hp (by omega)⟩⟩
    | false =>
      cases hd
      cases hs
      exact ⟨⟨hok', htop', hrel, hinv', by simp only; omega, by omega, hfs, hend⟩,
          dc, 0, ha2, by simp only; omega, by simp only [Tr.outstanding]; omega, fun hp => ⟨hses, lim_acct hadv hlim hp (by omega)⟩⟩
  | sizeKnown fc buf =>
    simp only [Tr.note, Tr.noteFrame, State.isEnded, Bool.false_eq_true, if_false] at hs
    simp only [State.consumeData, Except.bind_eq_ok, Except.pure_eq_ok] at hc
    obtain ⟨⟨fc', ses'⟩, hc, h1⟩ := hc
    cases h1
    obtain ⟨hf, dc, dr, ha1, ha2, hmax, hlim, hses, hdr⟩ := consumeCore_ok hc
    obtain ⟨⟨hcon, hadv⟩, hinv, hdl, hret, hfs, hend, hgap⟩ := hst
    simp only [Bool.false_eq_true, if_false] at hdr
    subst hdr
    have hr' := ha1.ret
    have hc' := ha1.con
    have hkn := finalSizeOk_known hf
    simp only [State.deliver, Except.bind_eq_ok] at hd
    obtain ⟨buf', hb, hd⟩ := hd
    have hbr := inboundFrame_retired hb
    have hinv' := inboundFrame_inv hinv hb
    rw [← carried_cons] at hinv'
    have hrel : FcRel (max hi (off + d.length)) adv fc' := ⟨by omega, by rw [ha1.all]; exact hadv⟩
    have hends := ends_add hend (by omega : off + d.length ≤ hi) (fun h => by rw [hkn.2 h, hcon])
    split at hd
    · cases hd
      cases hs
      exact ⟨⟨hok', htop', hrel, hinv', by simp only; omega, by omega, hfs, hends,
        all_carried hinv' (by simp only; omega)⟩, dc, 0, ha2, by simp only; omega,
        by simp only [Tr.outstanding]; omega, fun hp => ⟨hses, lim_acct hadv hlim hp (by omega)⟩⟩
    · cases hd
      cases hs
      exact ⟨⟨hok', htop', hrel, hinv', by simp only; omega, by omega, hfs, hends,
        some_gap hinv' (by simp only; omega) htop' (by simp only; omega)⟩,
        dc, 0, ha2, by simp only; omega, by simp only [Tr.outstanding]; omega, fun hp => ⟨hses, lim_acct hadv hlim hp (by omega)⟩⟩
  | sizeKnownAt fc buf err fs rel =>
    simp only [Tr.note, Tr.noteFrame, State.isEnded, Bool.false_eq_true, if_false] at hs
    simp only [State.consumeData, Except.bind_eq_ok, Except.pure_eq_ok] at hc
    obtain ⟨⟨fc', ses'⟩, hc, h1⟩ := hc
    cases h1
    obtain ⟨hf, dc, dr, ha1, ha2, hmax, hlim, hses, hdr⟩ := consumeCore_ok hc
    obtain ⟨⟨hcon, hadv⟩, hinv, hdl, hlt, hle, hfsz, hret, hfs, hend⟩ := hst
    simp only [Bool.false_eq_true, if_false] at hdr
    subst hdr
    have hr' := ha1.ret
    have hc' := ha1.con
    have hkn := finalSizeOk_known hf
    have hrel : FcRel (max hi (off + d.length)) adv fc' := ⟨by omega, by rw [ha1.all]; exact hadv⟩
    have hends := ends_add hend (by omega : off + d.length ≤ hi) (fun h => by rw [hkn.2 h, hcon])
    simp only [State.deliver] at hd
    split at hd
    · simp only [Except.bind_eq_ok, Except.pure_eq_ok] at hd
      obtain ⟨buf', hb, hd⟩ := hd
      have hbr := inboundFrame_retired hb
      have hinv' := inboundFrame_inv hinv hb
      rw [← add_upTo_pos, ← carried_cons] at hinv'
      cases hd
      cases hs
      exact ⟨⟨hok', htop', hrel, hinv', by simp only; omega, by omega, by simp only; omega,
        by simp only; omega, by simp only; omega, hfs, hends⟩,
        dc, 0, ha2, by simp only; omega, by simp only [Tr.outstanding]; omega, fun hp => ⟨hses, lim_acct hadv hlim hp (by omega)⟩⟩
    · cases hd
      cases hs
      have hinv' := hinv
      rw [← add_upTo_zero (off := off) (d := d) (by omega), ← carried_cons] at hinv'
      exact ⟨⟨hok', htop', hrel, hinv', by simp only; omega, by omega, by simp only; omega,
        by simp only; omega, by simp only; omega, hfs, hends⟩,
        dc, 0, ha2, by simp only; omega, by simp only [Tr.outstanding]; omega, fun hp => ⟨hses, lim_acct hadv hlim hp (by omega)⟩⟩
  | dataRecvd fc buf =>
    simp only [Tr.note, Tr.noteFrame, State.isEnded, Bool.false_eq_true, if_false] at hs
    simp only [State.consumeData, Except.bind_eq_ok, Except.pure_eq_ok] at hc
    obtain ⟨⟨fc', ses'⟩, hc, h1⟩ := hc
    cases h1
    obtain ⟨hf, dc, dr, ha1, ha2, hmax, hlim, hses, hdr⟩ := consumeCore_ok hc
    obtain ⟨⟨hcon, hadv⟩, hinv, hdl, hret, hfs, hend, hall⟩ := hst
    simp only [Bool.false_eq_true, if_false] at hdr
    subst hdr
    have hr' := ha1.ret
    have hc' := ha1.con
    have hkn := finalSizeOk_known hf
    have hrel : FcRel (max hi (off + d.length)) adv fc' := ⟨by omega, by rw [ha1.all]; exact hadv⟩
    have hends := ends_add hend (by omega : off + d.length ≤ hi) (fun h => by rw [hkn.2 h, hcon])
    cases hd
    cases hs
    have hinv' : Inv (carried ((off, d) :: frames)) buf := by
      rw [carried_cons]
      refine hinv.widen (fun i b hb => .inl hb) (fun i hi' => ?_)
      rw [Rcv.add_ex] at hi'
      rcases hi' with h | h
      · exact h
      · exact hall i (by omega)
    refine ⟨⟨hok', htop', hrel, hinv', by simp only; omega, by simp only; omega, hfs, hends, ?_⟩,
      dc, 0, ha2, by simp only; omega, by simp only [Tr.outstanding]; omega, fun hp => ⟨hses, lim_acct hadv hlim hp (by omega)⟩⟩
    intro i hi'
    obtain ⟨b, hb⟩ := hall i (by simp only at hi'; omega)
    exact ⟨b, by rw [carried_cons]; exact .inl hb⟩
  | dataRead a b =>
    cases hc
    cases hd
    cases hs
    exact ⟨⟨hok, htop, hst⟩, 0, 0, Adj.refl _, rfl, rfl, by omega⟩
  | abortReading fc fsr fn err a b =>
    simp only [Tr.note, Tr.noteFrame, State.isEnded, Bool.false_eq_true, if_false] at hs
    simp only [State.consumeData, Except.bind_eq_ok, Except.pure_eq_ok] at hc
    obtain ⟨⟨fc', ses'⟩, hc, h1⟩ := hc
    cases h1
    obtain ⟨hf, dc, dr, ha1, ha2, hmax, hlim, hses, hdr⟩ := consumeCore_ok hc
    obtain ⟨⟨hcon, hadv⟩, hret, hfs, hend⟩ := hst
    simp only [if_true] at hdr
    have hr' := ha1.ret
    have hc' := ha1.con
    have hrel : FcRel (max hi (off + d.length)) adv fc' := ⟨by omega, by rw [ha1.all]; exact hadv⟩
    cases hd
    cases hs
    refine ⟨⟨hok', htop', hrel, by simp only; omega, hfs, ?_⟩, dc, dr, ha2, by simp only; omega,
      by simp only [Tr.outstanding]; omega, fun hp => ⟨hses, lim_acct hadv hlim hp (by omega)⟩⟩
    cases fsr with
    | true =>
      have hkn := finalSizeOk_known hf
      exact ends_add hend (by omega : off + d.length ≤ hi) (fun h => by rw [hkn.2 h, hcon])
    | false =>
      simp only [Bool.false_eq_true, if_false] at hend
      cases fin with
      | true =>
        have := finalSizeOk_fin_unknown hf
        exact ⟨by simp, by simp [hend]; omega⟩
      | false => exact hend
  | waitForReset fc a b =>
    simp only [Tr.note, Tr.noteFrame, State.isEnded, Bool.false_eq_true, if_false] at hs
    simp only [State.consumeData, Except.bind_eq_ok, Except.pure_eq_ok] at hc
    obtain ⟨⟨fc', ses'⟩, hc, h1⟩ := hc
    cases h1
    obtain ⟨hf, dc, dr, ha1, ha2, hmax, hlim, hses, hdr⟩ := consumeCore_ok hc
    obtain ⟨⟨hcon, hadv⟩, hret, hfs⟩ := hst
    simp only [if_true] at hdr
    have hr' := ha1.ret
    have hc' := ha1.con
    have hrel : FcRel (max hi (off + d.length)) adv fc' := ⟨by omega, by rw [ha1.all]; exact hadv⟩
    cases hd
    cases hs
    exact ⟨⟨hok', htop', hrel, by simp only; omega, hfs⟩, dc, dr, ha2, by simp only; omega,
      by simp only [Tr.outstanding]; omega, fun hp => ⟨hses, lim_acct hadv hlim hp (by omega)⟩⟩
  | resetRecvd a b =>
    cases hc
    cases hd
    cases hs
    exact ⟨⟨hok, htop, hst⟩, 0, 0, Adj.refl _, rfl, rfl, by omega⟩

/-! ## Reset -/

theorem finishReset_ok {st st' : State} {ses ses' : RFc} {fs err a b : Nat} {r : Bool} {evs : List Ev}
    {fc : RFc} (hfc : (∃ buf e x rel, st = .sizeKnownAt fc buf e x rel) ∨
      (∃ f n e x y, st = .abortReading fc f n e x y) ∨ (∃ x y, st = .waitForReset fc x y))
    (h : st.finishReset ses fs err a b = .ok (st', ses', r, evs)) :
    st' = .resetRecvd a b ∧ fc.retired ≤ fs ∧ Adj ses ses' 0 (fs - fc.retired) := by
  have : (if fs < fc.retired then .error .panic
    else do
      let (_, ses') ← retireData (fs - fc.retired) fc ses
      pure (State.resetRecvd a b, ses', true, [Ev.reset err])) = Except.ok (st', ses', r, evs) := by
    rcases hfc with ⟨_, _, _, _, rfl⟩ | ⟨_, _, _, _, _, rfl⟩ | ⟨_, _, rfl⟩ <;> exact h
  split at this
  · cases this
  · simp only [Except.bind_eq_ok, Except.pure_eq_ok] at this
    obtain ⟨⟨fc1, ses1⟩, h1, h2⟩ := this
    cases h2
    exact ⟨rfl, by omega, (retireData_ok h1).2.1⟩

theorem drain_ok {adv : List Nat} {frames : List (Nat × Bytes)} {ends : List Nat} {hi : Nat}
    {delivered : Bytes} {finSeen : Bool} {fc ses ses' : RFc} {buf : Rx} {rel err : Nat} {st' : State}
    {r : Bool} {evs : List Ev}
    (hrel : FcRel hi adv fc) (hinv : buf.retired < rel → Inv ((carried frames).upTo rel) buf)
    (hdl : delivered.length = buf.retired) (hrl : rel ≤ hi) (hret : fc.retired + (rel - buf.retired) = hi)
    (hfs : finSeen = false) (hends : Ends hi ends)
    (h : (State.sizeKnownAt fc buf err hi rel).completeIfDrained ses = .ok (st', ses', r, evs)) :
    StOk adv frames ends hi delivered finSeen st' ∧ Adj ses ses' 0 0 ∧
    ∀ t' : Tr, t'.st = st' → t'.delivered = delivered → t'.outstanding = rel - buf.retired := by
  simp only [State.completeIfDrained] at h
  split at h
  · rename_i hlt
    cases h
    refine ⟨⟨hrel, hinv hlt, hdl, hlt, hrl, rfl, hret, hfs, hends⟩, Adj.refl _, ?_⟩
    intro t' h1 h2
    simp only [Tr.outstanding, h1, h2, hdl]
  · obtain ⟨rfl, hle, ha⟩ := finishReset_ok (.inl ⟨_, _, _, _, rfl⟩) h
    refine ⟨hfs, ?_, ?_⟩
    · rwa [show hi - fc.retired = 0 by omega] at ha
    · intro t' h1 h2
      simp only [Tr.outstanding, h1]; omega

theorem resetLive_ok {adv : List Nat} {frames : List (Nat × Bytes)} {ends : List Nat} {hi : Nat}
    {delivered : Bytes} {finSeen : Bool} {fc ses ses' : RFc} {buf : Rx} {rel err : Nat} {st' : State}
    {r : Bool} {evs : List Ev}
    (hrel : FcRel hi adv fc)
    (hinv : buf.retired < rel → Inv ((carried frames).upTo rel) (buf.discardAfter rel))
    (hdl : delivered.length = buf.retired) (hdl' : delivered.length ≤ hi) (hrl : rel ≤ hi)
    (hret : fc.retired ≤ hi - (rel - buf.retired)) (hfs : finSeen = false) (hends : Ends hi ends)
    (h : (do
      let (fc', ses') ← retireUndeliverable hi rel (buf.discardAfter rel).retired fc ses
      (State.sizeKnownAt fc' (buf.discardAfter rel) err hi rel).completeIfDrained ses') =
        .ok (st', ses', r, evs)) :
    StOk adv frames ends hi delivered finSeen st' ∧ ∃ dr, Adj ses ses' 0 dr ∧
    ∀ t' : Tr, t'.st = st' → t'.delivered = delivered →
      t'.outstanding + dr + fc.retired = hi := by
  simp only [Except.bind_eq_ok] at h
  obtain ⟨⟨fc1, ses1⟩, h1, h⟩ := h
  simp only [retireUndeliverable, discardAfter_retired] at h1
  obtain ⟨ha1, ha2, _⟩ := retireData_ok h1
  have hr := ha1.ret
  have hc := ha1.con
  have := drain_ok (adv := adv) (frames := frames) (ends := ends) (delivered := delivered)
    (finSeen := finSeen) (fc := fc1) (buf := buf.discardAfter rel)
    ⟨by rw [hc]; exact hrel.con, by rw [ha1.all]; exact hrel.adv⟩
    (by rw [discardAfter_retired]; exact hinv) (by rw [discardAfter_retired]; exact hdl) hrl
    (by rw [discardAfter_retired]; omega) hfs hends h
  obtain ⟨g1, g2, g3⟩ := this
  refine ⟨g1, _, ha2.trans g2, ?_⟩
  intro t' e1 e2
  have := g3 t' e1 e2
  rw [discardAfter_retired] at this
  omega

theorem reset_ok {t t' : Tr} {ses ses' : RFc} {err fs rel : Nat} {o : Out}
    (h : StrOk t) (hs : t.step ses (.reset err fs rel) = .ok (t', ses', o)) :
    StrOk t' ∧ Acct t t' ses ses' := by
  have hlen := h.len
  obtain ⟨st, adv, frames, ends, hi, delivered, finSeen⟩ := t
  obtain ⟨hok, htop, hst⟩ := h
  simp only at hok htop hst hlen
  simp only [Tr.step, Except.bind_eq_ok, Except.pure_eq_ok] at hs
  obtain ⟨⟨st2, ses2, r, evs⟩, hin, hs⟩ := hs
  simp only [State.reset] at hin
  split at hin
  · cases hin
  rename_i hrf
  simp only [Except.bind_eq_ok] at hin
  obtain ⟨⟨st1, ses1⟩, hc, hd⟩ := hin
  simp only at hd
  have htop' : ∀ i b, carried frames i b → i < max hi fs := fun i b hb => by
    have := htop i b hb; omega
  cases st with
  | recv fc buf =>
    simp only [Tr.note, State.isEnded, Bool.false_eq_true, if_false, if_true] at hs
    simp only [State.consumeData, Except.bind_eq_ok, Except.pure_eq_ok] at hc
    obtain ⟨⟨fc', ses3⟩, hc, h1⟩ := hc
    cases h1
    obtain ⟨hf, dc, dr, ha1, ha2, hmax, hlim, hses, hdr⟩ := consumeCore_ok hc
    obtain ⟨⟨hcon, hadv⟩, hinv, hdl, hret, hfs, hend⟩ := hst
    simp only [Bool.false_eq_true, if_false] at hdr
    subst hdr
    have hr' := ha1.ret
    have hc' := ha1.con
    have hge := finalSizeOk_fin_unknown hf
    have hmx : max hi fs = fs := by omega
    obtain ⟨g1, dr, g2, g3⟩ := resetLive_ok (adv := adv) (frames := frames) (ends := fs :: ends)
      (delivered := delivered) (finSeen := finSeen) (fc := fc') ⟨by omega, by rw [ha1.all]; exact hadv⟩
      (fun h => discardAfter_inv hinv h) hdl (by omega) (by omega) (by omega) hfs
      ⟨by simp, by simp [hend]⟩ hd
    cases hs
    refine ⟨⟨hok, htop', by simp only [hmx]; exact g1⟩, _, _, ha2.trans g2, by simp only; omega, ?_,
      fun hp => ⟨by simpa using hses, lim_acct hadv hlim hp (by omega)⟩⟩
    have := g3 ⟨st2, adv, frames, fs :: ends, max hi fs, delivered, finSeen⟩ rfl rfl
    rw [show Tr.outstanding ⟨.recv fc buf, adv, frames, ends, hi, delivered, finSeen⟩
      = hi - delivered.length from rfl]
    omega
  | sizeKnown fc buf =>
    simp only [Tr.note, State.isEnded, Bool.false_eq_true, if_false, if_true] at hs
    simp only [State.consumeData, Except.bind_eq_ok, Except.pure_eq_ok] at hc
    obtain ⟨⟨fc', ses3⟩, hc, h1⟩ := hc
    cases h1
    obtain ⟨hf, dc, dr, ha1, ha2, hmax, hlim, hses, hdr⟩ := consumeCore_ok hc
    obtain ⟨⟨hcon, hadv⟩, hinv, hdl, hret, hfs, hend, hgap⟩ := hst
    simp only [Bool.false_eq_true, if_false] at hdr
    subst hdr
    have hr' := ha1.ret
    have hc' := ha1.con
    have hge := (finalSizeOk_known hf).2 rfl
    have hmx : max hi fs = fs := by omega
    obtain ⟨g1, dr, g2, g3⟩ := resetLive_ok (adv := adv) (frames := frames) (ends := fs :: ends)
      (delivered := delivered) (finSeen := finSeen) (fc := fc') ⟨by omega, by rw [ha1.all]; exact hadv⟩
      (fun h => discardAfter_inv hinv h) hdl (by omega) (by omega) (by omega) hfs
      (ends_add' hend (by omega)) hd
    cases hs
    refine ⟨⟨hok, htop', by simp only [hmx]; exact g1⟩, _, _, ha2.trans g2, by simp only; omega, ?_,
      fun hp => ⟨by simpa using hses, lim_acct hadv hlim hp (by omega)⟩⟩
    have := g3 ⟨st2, adv, frames, fs :: ends, max hi fs, delivered, finSeen⟩ rfl rfl
    rw [show Tr.outstanding ⟨.sizeKnown fc buf, adv, frames, ends, hi, delivered, finSeen⟩
      = hi - delivered.length from rfl]
    omega
  | sizeKnownAt fc buf e fs' stored =>
    simp only [Tr.note, State.isEnded, Bool.false_eq_true, if_false, if_true] at hs
    simp only [State.consumeData, Except.bind_eq_ok, Except.pure_eq_ok] at hc
    obtain ⟨⟨fc', ses3⟩, hc, h1⟩ := hc
    cases h1
    obtain ⟨hf, dc, dr, ha1, ha2, hmax, hlim, hses, hdr⟩ := consumeCore_ok hc
    obtain ⟨⟨hcon, hadv⟩, hinv, hdl, hlt, hle, hfsz, hret, hfs, hend⟩ := hst
    simp only [Bool.false_eq_true, if_false] at hdr
    subst hdr hfsz
    have hr' := ha1.ret
    have hc' := ha1.con
    have hge := (finalSizeOk_known hf).2 rfl
    obtain rfl : fs = fs' := by omega
    have hmx : max fs fs = fs := by omega
    have hout : Tr.outstanding ⟨.sizeKnownAt fc buf e fs stored, adv, frames, ends, fs, delivered, finSeen⟩
      = stored - delivered.length := rfl
    simp only [State.resetMatch] at hd
    split at hd
    · cases hd
    split at hd
    · obtain ⟨g1, dr, g2, g3⟩ := resetLive_ok (adv := adv) (frames := frames) (ends := fs :: ends)
        (delivered := delivered) (finSeen := finSeen) (fc := fc') ⟨by omega, by rw [ha1.all]; exact hadv⟩
        (fun h => by
          have := discardAfter_inv hinv h
          rwa [upTo_upTo (by omega)] at this) hdl (by omega) (by omega) (by omega) hfs
        (ends_add' hend rfl) hd
      cases hs
      refine ⟨⟨hok, htop', by simp only [hmx]; exact g1⟩, _, _, ha2.trans g2, by simp only; omega, ?_,
        fun hp => ⟨by simpa using hses, lim_acct hadv hlim hp (by omega)⟩⟩
      have := g3 ⟨st2, adv, frames, fs :: ends, max fs fs, delivered, finSeen⟩ rfl rfl
      rw [hout]
      omega
    · cases hd
      cases hs
      refine ⟨⟨hok, htop', ?_⟩, _, _, ha2, by simp only; omega, ?_, fun hp => ⟨hses, lim_acct hadv hlim hp (by omega)⟩⟩
      · simp only [hmx]
        exact ⟨⟨by omega, by rw [ha1.all]; exact hadv⟩, hinv, hdl, hlt, hle, rfl, by omega, hfs,
          ends_add' hend rfl⟩
      · simp only [Tr.outstanding]; omega
  | dataRecvd fc buf =>
    simp only [Tr.note, State.isEnded, Bool.false_eq_true, if_false, if_true] at hs
    simp only [State.consumeData, Except.bind_eq_ok, Except.pure_eq_ok] at hc
    obtain ⟨⟨fc', ses3⟩, hc, h1⟩ := hc
    cases h1
    obtain ⟨hf, dc, dr, ha1, ha2, hmax, hlim, hses, hdr⟩ := consumeCore_ok hc
    obtain ⟨⟨hcon, hadv⟩, hinv, hdl, hret, hfs, hend, hall⟩ := hst
    simp only [Bool.false_eq_true, if_false] at hdr
    subst hdr
    have hr' := ha1.ret
    have hc' := ha1.con
    have hge := (finalSizeOk_known hf).2 rfl
    obtain rfl : fs = hi := by omega
    have hmx : max fs fs = fs := by omega
    cases hd
    cases hs
    refine ⟨⟨hok, htop', ?_⟩, _, _, ha2, by simp only; omega, ?_, fun hp => ⟨hses, lim_acct hadv hlim hp (by omega)⟩⟩
    · simp only [hmx]
      exact ⟨⟨by omega, by rw [ha1.all]; exact hadv⟩, hinv, hdl, by omega, hfs,
          ends_add' hend rfl, hall⟩
    · simp only [Tr.outstanding]; omega
  | dataRead a b =>
    cases hc
    cases hd
    cases hs
    exact ⟨⟨hok, htop, hst⟩, 0, 0, Adj.refl _, rfl, rfl, by omega⟩
  | abortReading fc fsr fn e a b =>
    simp only [Tr.note, State.isEnded, Bool.false_eq_true, if_false, if_true] at hs
    simp only [State.consumeData, Except.bind_eq_ok, Except.pure_eq_ok] at hc
    obtain ⟨⟨fc', ses3⟩, hc, h1⟩ := hc
    cases h1
    obtain ⟨hf, dc, dr, ha1, ha2, hmax, hlim, hses, hdr⟩ := consumeCore_ok hc
    obtain ⟨⟨hcon, hadv⟩, hret, hfs, hend⟩ := hst
    simp only [if_true] at hdr
    have hr' := ha1.ret
    have hc' := ha1.con
    obtain ⟨rfl, g1, g2⟩ := finishReset_ok (st := .abortReading fc' (fsr || true) fn e a b)
      (.inr (.inl ⟨_, _, _, _, _, rfl⟩)) hd
    cases hs
    refine ⟨⟨hok, htop', hfs⟩, _, _, ha2.trans g2, by simp only; omega, ?_, fun hp => ⟨by simpa using hses, lim_acct hadv hlim hp (by omega)⟩⟩
    simp only [Tr.outstanding]; omega
  | waitForReset fc a b =>
    simp only [Tr.note, State.isEnded, Bool.false_eq_true, if_false, if_true] at hs
    simp only [State.consumeData, Except.bind_eq_ok, Except.pure_eq_ok] at hc
    obtain ⟨⟨fc', ses3⟩, hc, h1⟩ := hc
    cases h1
    obtain ⟨hf, dc, dr, ha1, ha2, hmax, hlim, hses, hdr⟩ := consumeCore_ok hc
    obtain ⟨⟨hcon, hadv⟩, hret, hfs⟩ := hst
    simp only [if_true] at hdr
    have hr' := ha1.ret
    have hc' := ha1.con
    obtain ⟨rfl, g1, g2⟩ := finishReset_ok (st := .waitForReset fc' a b)
      (.inr (.inr ⟨_, _, rfl⟩)) hd
    cases hs
    refine ⟨⟨hok, htop', hfs⟩, _, _, ha2.trans g2, by simp only; omega, ?_, fun hp => ⟨by simpa using hses, lim_acct hadv hlim hp (by omega)⟩⟩
    simp only [Tr.outstanding]; omega
  | resetRecvd a b =>
    cases hc
    cases hd
    cases hs
    exact ⟨⟨hok, htop, hst⟩, 0, 0, Adj.refl _, rfl, rfl, by omega⟩

/-! ## Reading -/

theorem read_ok {t t' : Tr} {ses ses' : RFc} {n : Nat} {o : Out}
    (h : StrOk t) (hs : t.step ses (.read n) = .ok (t', ses', o)) :
    StrOk t' ∧ Acct t t' ses ses' := by
  have hlen := h.len
  obtain ⟨st, adv, frames, ends, hi, delivered, finSeen⟩ := t
  obtain ⟨hok, htop, hst⟩ := h
  simp only at hok htop hst hlen
  simp only [Tr.step] at hs
  split at hs
  rotate_left
  · cases hs
    exact ⟨⟨hok, htop, hst⟩, 0, 0, Adj.refl _, rfl, rfl, by omega⟩
  · cases hs
  rename_i st' ses2 out fin evs hr
  cases hs
  -- reads append bytes carried by frames
  have key : ∀ {buf buf' : Rx} {out : Bytes} {R : Rcv}, (∀ i b, R i b → carried frames i b) →
      Inv R buf → delivered.length = buf.retired → buf.read n = .ok (buf', out) →
      Inv R buf' ∧ buf'.retired = buf.retired + out.length ∧
      Ok (carried frames) 0 (delivered ++ out) ∧ (delivered ++ out).length = buf'.retired ∧
      (delivered ++ out).length ≤ hi := by
    intro buf buf' out R hR hinv hdl hb
    obtain ⟨b2, o2, he, h1, h2, h3, _⟩ := read_inv hinv n
    rw [hb] at he
    cases he
    have hok2 : Ok (carried frames) 0 (delivered ++ out) :=
      hok.append (by rw [hdl, Nat.zero_add]; exact h2.mono hR)
    have : StrOk ⟨.resetRecvd 0 0, adv, frames, ends, hi, delivered ++ out, false⟩ := ⟨hok2, htop, rfl⟩
    exact ⟨h1, h3, hok2, by rw [List.length_append]; omega, this.len⟩
  cases st with
  | recv fc buf =>
    simp only [State.read, Except.bind_eq_ok, Except.pure_eq_ok] at hr
    obtain ⟨⟨buf', out'⟩, hb, ⟨fc', ses3⟩, hf, hr⟩ := hr
    cases hr
    obtain ⟨⟨hcon, hadv⟩, hinv, hdl, hret, hfs, hend⟩ := hst
    obtain ⟨k1, k2, k3, k4, k5⟩ := key (fun _ _ h => h) hinv hdl hb
    obtain ⟨ha1, ha2, _⟩ := retireData_ok hf
    have hr' := ha1.ret
    have hc' := ha1.con
    refine ⟨⟨k3, htop, ⟨by simp only; omega, by rw [ha1.all]; exact hadv⟩, k1, k4, by simp only at *; omega, by simp [hfs], hend⟩,
      _, _, ha2, rfl, ?_, by omega⟩
    simp only [Tr.outstanding]; simp only at *; omega
  | sizeKnown fc buf =>
    simp only [State.read, Except.bind_eq_ok, Except.pure_eq_ok] at hr
    obtain ⟨⟨buf', out'⟩, hb, ⟨fc', ses3⟩, hf, hr⟩ := hr
    cases hr
    obtain ⟨⟨hcon, hadv⟩, hinv, hdl, hret, hfs, hend, hgap⟩ := hst
    obtain ⟨k1, k2, k3, k4, k5⟩ := key (fun _ _ h => h) hinv hdl hb
    obtain ⟨ha1, ha2, _⟩ := retireData_ok hf
    have hr' := ha1.ret
    have hc' := ha1.con
    refine ⟨⟨k3, htop, ⟨by simp only; omega, by rw [ha1.all]; exact hadv⟩, k1, k4, by simp only at *; omega, by simp [hfs], hend, hgap⟩,
      _, _, ha2, rfl, ?_, by omega⟩
    simp only [Tr.outstanding]; simp only at *; omega
  | dataRecvd fc buf =>
    simp only [State.read, Except.bind_eq_ok] at hr
    obtain ⟨⟨buf', out'⟩, hb, ⟨fc', ses3⟩, hf, left, hl, hr⟩ := hr
    obtain ⟨⟨hcon, hadv⟩, hinv, hdl, hret, hfs, hend, hall⟩ := hst
    obtain ⟨k1, k2, k3, k4, k5⟩ := key (fun _ _ h => h) hinv hdl hb
    obtain ⟨ha1, ha2, _⟩ := retireData_ok hf
    have hr' := ha1.ret
    have hc' := ha1.con
    obtain ⟨m, hm, hm0⟩ := buffered_spec k1
    simp only at hl
    rw [hl] at hm
    cases hm
    split at hr
    · rename_i h0
      cases hr
      have hnil := hm0.mp h0
      have hfull : (delivered ++ out').length = hi := by
        by_contra hne
        have hcv := (k1.cover buf'.retired (Nat.le_refl _)).mp (hall _ (by omega))
        rw [hnil] at hcv
        simp at hcv
      refine ⟨⟨k3, htop, fun _ => ⟨hfull, hend⟩⟩, _, _, ha2, rfl, ?_, by omega⟩
      simp only [Tr.outstanding]; simp only at *; omega
    · cases hr
      refine ⟨⟨k3, htop, ⟨by simp only; omega, by rw [ha1.all]; exact hadv⟩, k1, k4, by simp only at *; omega,
        by simp [hfs], hend, hall⟩, _, _, ha2, rfl, ?_, by omega⟩
      simp only [Tr.outstanding]; simp only at *; omega
  | sizeKnownAt fc buf e fs rel =>
    simp only [State.read, Except.bind_eq_ok] at hr
    obtain ⟨⟨buf', out'⟩, hb, ⟨fc', ses3⟩, hf, ⟨st3, ses4, r, ev⟩, hcm, hr⟩ := hr
    cases hr
    obtain ⟨⟨hcon, hadv⟩, hinv, hdl, hlt, hle, hfsz, hret, hfs, hend⟩ := hst
    subst hfsz
    obtain ⟨k1, k2, k3, k4, k5⟩ := key (fun _ _ h => h.1) hinv hdl hb
    obtain ⟨ha1, ha2, _⟩ := retireData_ok hf
    have hr' := ha1.ret
    have hc' := ha1.con
    have hrd : buf'.retired ≤ rel := by
      by_contra hgt
      obtain ⟨b, hb'⟩ := k1.past rel (by omega)
      exact absurd hb'.2 (by omega)
    simp only at hr' hcm ha2
    obtain ⟨g1, g2, g3⟩ := drain_ok (adv := adv) (frames := frames) (ends := ends)
      (delivered := delivered ++ out') (finSeen := finSeen)
      ⟨by omega, by rw [ha1.all]; exact hadv⟩ (fun _ => k1) k4 hle (by omega) hfs hend hcm
    refine ⟨⟨k3, htop, by simpa using g1⟩, _, _, ha2.trans g2, rfl, ?_, by omega⟩
    have := g3 ⟨st3, adv, frames, ends, fs, delivered ++ out', finSeen || false⟩ rfl rfl
    rw [this]
    simp only [Tr.outstanding]; omega
  | dataRead a b => cases hr
  | abortReading fc fsr fn e a b => cases hr
  | waitForReset fc a b => cases hr
  | resetRecvd a b => cases hr

/-! ## Everything else -/

theorem stopSending_ok {t t' : Tr} {ses ses' : RFc} {err : Nat} {o : Out}
    (h : StrOk t) (hs : t.step ses (.stopSending err) = .ok (t', ses', o)) :
    StrOk t' ∧ Acct t t' ses ses' := by
  have hlen := h.len
  obtain ⟨st, adv, frames, ends, hi, delivered, finSeen⟩ := t
  obtain ⟨hok, htop, hst⟩ := h
  simp only at hok htop hst hlen
  simp only [Tr.step, Except.bind_eq_ok, Except.pure_eq_ok] at hs
  obtain ⟨⟨st2, ses2, r, evs⟩, hin, hs⟩ := hs
  cases hs
  cases st with
  | recv fc buf =>
    simp only [State.stopSending, Except.bind_eq_ok, Except.pure_eq_ok] at hin
    obtain ⟨⟨fc', ses3⟩, hf, hin⟩ := hin
    cases hin
    obtain ⟨⟨hcon, hadv⟩, hinv, hdl, hret, hfs, hend⟩ := hst
    obtain ⟨ha1, ha2, _⟩ := retireData_ok hf
    have hr' := ha1.ret
    have hc' := ha1.con
    refine ⟨⟨hok, htop, ⟨by simp only; omega, by rw [ha1.all]; exact hadv⟩, by simp only at *; omega, hfs, hend⟩,
      _, _, ha2, rfl, ?_, by omega⟩
    simp only [Tr.outstanding]; omega
  | sizeKnown fc buf =>
    simp only [State.stopSending, Except.bind_eq_ok, Except.pure_eq_ok] at hin
    obtain ⟨⟨fc', ses3⟩, hf, hin⟩ := hin
    cases hin
    obtain ⟨⟨hcon, hadv⟩, hinv, hdl, hret, hfs, hend, hgap⟩ := hst
    obtain ⟨ha1, ha2, _⟩ := retireData_ok hf
    have hr' := ha1.ret
    have hc' := ha1.con
    refine ⟨⟨hok, htop, ⟨by simp only; omega, by rw [ha1.all]; exact hadv⟩, by simp only at *; omega, hfs, hend⟩,
      _, _, ha2, rfl, ?_, by omega⟩
    simp only [Tr.outstanding]; omega
  | dataRecvd fc buf =>
    simp only [State.stopSending, Except.bind_eq_ok, Except.pure_eq_ok] at hin
    obtain ⟨⟨fc', ses3⟩, hf, hin⟩ := hin
    cases hin
    obtain ⟨⟨hcon, hadv⟩, hinv, hdl, hret, hfs, hend, hall⟩ := hst
    obtain ⟨ha1, ha2, _⟩ := retireData_ok hf
    refine ⟨⟨hok, htop, fun h => by rw [hfs] at h; cases h⟩, _, _, ha2, rfl, ?_, by omega⟩
    simp only [Tr.outstanding]; omega
  | sizeKnownAt fc buf e fs rel =>
    obtain ⟨⟨hcon, hadv⟩, hinv, hdl, hlt, hle, hfsz, hret, hfs, hend⟩ := hst
    obtain ⟨rfl, g1, g2⟩ := finishReset_ok (st := .sizeKnownAt fc buf e fs rel)
      (.inl ⟨_, _, _, _, rfl⟩) hin
    refine ⟨⟨hok, htop, hfs⟩, _, _, g2, rfl, ?_, by omega⟩
    simp only [Tr.outstanding]; omega
  | dataRead a b => cases hin; exact ⟨⟨hok, htop, hst⟩, 0, 0, Adj.refl _, rfl, rfl, by omega⟩
  | abortReading fc fsr fn e a b =>
    cases hin; exact ⟨⟨hok, htop, hst⟩, 0, 0, Adj.refl _, rfl, rfl, by omega⟩
  | waitForReset fc a b => cases hin; exact ⟨⟨hok, htop, hst⟩, 0, 0, Adj.refl _, rfl, rfl, by omega⟩
  | resetRecvd a b => cases hin; exact ⟨⟨hok, htop, hst⟩, 0, 0, Adj.refl _, rfl, rfl, by omega⟩

theorem write_strOk {t t' : Tr} {ses ses' : RFc} {fits : Bool} {now rtt : Nat} {o : Out}
    (h : StrOk t) (hs : t.step ses (.write fits now rtt) = .ok (t', ses', o)) :
    StrOk t' ∧ Acct t t' ses ses' := by
  obtain ⟨st, adv, frames, ends, hi, delivered, finSeen⟩ := t
  obtain ⟨hok, htop, hst⟩ := h
  simp only at hok htop hst
  simp only [Tr.step, Except.bind_eq_ok, Except.pure_eq_ok] at hs
  obtain ⟨⟨st2, fr⟩, hw, hs⟩ := hs
  cases hs
  cases st with
  | recv fc buf =>
    simp only [State.writeFrame, Except.bind_eq_ok, Except.pure_eq_ok] at hw
    obtain ⟨⟨fc', l⟩, hf, hw⟩ := hw
    cases hw
    obtain ⟨⟨hcon, hadv⟩, hinv, hdl, hret, hfs, hend⟩ := hst
    obtain ⟨h1, h2, _, h4⟩ := write_ok hf
    refine ⟨⟨hok, htop, ⟨by simp only; omega, ?_⟩, hinv, hdl, by simp only; omega, hfs, hend⟩,
      0, 0, Adj.refl _, rfl, rfl, by omega⟩
    cases l with
    | none => simp only [Option.map]; rw [h4]; exact hadv
    | some l => simp only [Option.map]; rw [h4.1]; rfl
  | abortReading fc fsr fn e a b =>
    simp only [State.writeFrame] at hw
    split at hw
    · cases hw; exact ⟨⟨hok, htop, hst⟩, 0, 0, Adj.refl _, rfl, rfl, by omega⟩
    · cases hw; exact ⟨⟨hok, htop, hst⟩, 0, 0, Adj.refl _, rfl, rfl, by omega⟩
  | sizeKnown fc buf => cases hw; exact ⟨⟨hok, htop, hst⟩, 0, 0, Adj.refl _, rfl, rfl, by omega⟩
  | dataRecvd fc buf => cases hw; exact ⟨⟨hok, htop, hst⟩, 0, 0, Adj.refl _, rfl, rfl, by omega⟩
  | sizeKnownAt fc buf e fs rel =>
    cases hw; exact ⟨⟨hok, htop, hst⟩, 0, 0, Adj.refl _, rfl, rfl, by omega⟩
  | dataRead a b => cases hw; exact ⟨⟨hok, htop, hst⟩, 0, 0, Adj.refl _, rfl, rfl, by omega⟩
  | waitForReset fc a b => cases hw; exact ⟨⟨hok, htop, hst⟩, 0, 0, Adj.refl _, rfl, rfl, by omega⟩
  | resetRecvd a b => cases hw; exact ⟨⟨hok, htop, hst⟩, 0, 0, Adj.refl _, rfl, rfl, by omega⟩

/-- Replacing the flow control of a receiving stream by one with the same counters. -/
theorem stOk_recv_adj {adv : List Nat} {frames : List (Nat × Bytes)} {ends : List Nat} {hi : Nat}
    {delivered : Bytes} {finSeen : Bool} {fc fc' : RFc} {buf : Rx}
    (h : StOk adv frames ends hi delivered finSeen (.recv fc buf)) (hc : fc'.consumed = fc.consumed)
    (hr : fc'.retired = fc.retired) (ha : fc'.maxAllowed = fc.maxAllowed) :
    StOk adv frames ends hi delivered finSeen (.recv fc' buf) := by
  obtain ⟨⟨hcon, hadv⟩, hinv, hdl, hret, hfs, hend⟩ := h
  exact ⟨⟨by omega, by rw [ha]; exact hadv⟩, hinv, hdl, by omega, hfs, hend⟩

theorem setMaxActive_eq (s : RFc) (w : Nat) : (s.setMaxActive w).consumed = s.consumed ∧
    (s.setMaxActive w).retired = s.retired ∧ (s.setMaxActive w).maxAllowed = s.maxAllowed ∧
    (s.setMaxActive w).maxActive = w := by
  simp [RFc.setMaxActive]

theorem step_ok {t t' : Tr} {ses ses' : RFc} {op : Op} {o : Out}
    (h : StrOk t) (hs : t.step ses op = .ok (t', ses', o)) : StrOk t' ∧ Acct t t' ses ses' := by
  have triv : StrOk t ∧ Acct t t ses ses := ⟨h, 0, 0, Adj.refl _, rfl, rfl, by omega⟩
  cases op with
  | frame fin off d => exact frame_ok h hs
  | reset err fs rel => exact reset_ok h hs
  | read n => exact read_ok h hs
  | stopSending err => exact stopSending_ok h hs
  | write fits now rtt => exact write_strOk h hs
  | stopSendingAcked =>
    obtain ⟨st, adv, frames, ends, hi, delivered, finSeen⟩ := t
    obtain ⟨hok, htop, hst⟩ := h
    cases hs
    cases st with
    | abortReading fc fsr fn e a b =>
      cases fsr with
      | true => exact ⟨⟨hok, htop, hst.2.2.1⟩, 0, 0, Adj.refl _, rfl, rfl, by omega⟩
      | false =>
        exact ⟨⟨hok, htop, hst.1, hst.2.1, hst.2.2.1⟩, 0, 0, Adj.refl _, rfl, rfl, by omega⟩
    | _ => exact triv
  | stopSendingLost =>
    obtain ⟨st, adv, frames, ends, hi, delivered, finSeen⟩ := t
    obtain ⟨hok, htop, hst⟩ := h
    cases hs
    cases st with
    | abortReading fc fsr fn e a b =>
      exact ⟨⟨hok, htop, hst⟩, 0, 0, Adj.refl _, rfl, rfl, by omega⟩
    | _ => exact triv
  | maxStreamDataLost l =>
    obtain ⟨st, adv, frames, ends, hi, delivered, finSeen⟩ := t
    obtain ⟨hok, htop, hst⟩ := h
    cases hs
    cases st with
    | recv fc buf =>
      have ha := frameLost_adj fc l
      exact ⟨⟨hok, htop, stOk_recv_adj hst ha.con ha.ret ha.all⟩, 0, 0, Adj.refl _, rfl, rfl, by omega⟩
    | _ => exact triv
  | peerBlocked =>
    obtain ⟨st, adv, frames, ends, hi, delivered, finSeen⟩ := t
    obtain ⟨hok, htop, hst⟩ := h
    cases hs
    cases st with
    | recv fc buf =>
      have ha := sendFlowcUpdate_adj fc
      exact ⟨⟨hok, htop, stOk_recv_adj hst ha.con ha.ret ha.all⟩, 0, 0, Adj.refl _, rfl, rfl, by omega⟩
    | _ => exact triv
  | setWindow w =>
    obtain ⟨st, adv, frames, ends, hi, delivered, finSeen⟩ := t
    obtain ⟨hok, htop, hst⟩ := h
    cases hs
    cases st with
    | recv fc buf =>
      have ha := setMaxActive_eq fc w
      exact ⟨⟨hok, htop, stOk_recv_adj hst ha.1 ha.2.1 ha.2.2.1⟩, 0, 0, Adj.refl _, rfl, rfl, by omega⟩
    | _ => exact triv

end Neqo.RecvS
