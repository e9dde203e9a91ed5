import Verif.E2E.SndLemmas
import Verif.E2E.RcvLemmas

/-! # The two ends of a stream agree -/
namespace Neqo.E2E
open Neqo.Codec (Bytes maxVarint)
open Neqo.Flow (SFc RFc)

/-- The receiver has taken note of a frame. -/
def Noted (t : RecvS.Tr) : Send.Frame → Prop
  | .stream off d fin _ => (off, d) ∈ t.frames ∧ (fin = true → off + d.length ∈ t.ends)
  | .reset _ f => f ∈ t.ends
  | .resetAt _ f _ => f ∈ t.ends
  | .blocked _ => True

/-- The two ends of one stream. -/
structure Pair (h : Send.Hist) (t : RecvS.Tr) (ar : List Nat) : Prop where
  lim : ∃ l ∈ t.advertised, h.r.limit ≤ l
  advLe : ∀ l ∈ t.advertised, l ≤ 2 ^ 62 - 1
  hi : t.hi ≤ h.r.written.length
  frames : ∀ off d, (off, d) ∈ t.frames → ∃ fin fill, Send.Frame.stream off d fin fill ∈ h.r.frames
  ends : ∀ e ∈ t.ends, (h.r.closed = true ∨ h.r.resetCalled = true) ∧ e = h.r.written.length
  fin : t.st.finKnown = true → h.r.closed = true
  atErr : ∀ e, t.st.atErr = some e → ∃ f ∈ h.r.frames, f.resetErr = some e
  arr : ∀ j ∈ ar, ∃ f, h.r.frames[j]? = some f ∧ (t.st.isEnded = true ∨ Noted t f)
  acks : ∀ i ∈ h.r.acks, ∃ j ∈ ar, ∃ off d fin fill, h.r.frames[j]? = some (.stream off d fin fill) ∧
    ((h.r.frames.take j).filterMap Send.tokOf).length = i

theorem pair_new (id ms mr : Nat) (fc : SFc) (h : ms ≤ mr) (hm : mr ≤ 2 ^ 62 - 1) :
    Pair (Send.Hist.new id ms fc) (RecvS.Tr.new mr) [] := by
  refine ⟨⟨mr, by simp [RecvS.Tr.new], h⟩, by simpa [RecvS.Tr.new] using hm, Nat.zero_le _, by simp [RecvS.Tr.new],
    by simp [RecvS.Tr.new], nofun, nofun, by simp, by simp [Send.Hist.new]⟩

theorem pair_snd {h h' : Send.Hist} {t : RecvS.Tr} {ar : List Nat} (hp : Pair h t ar) (hr : Send.Reached h)
    {conn conn' : SFc} {op : Send.Op} {out : Send.Out} (hs : h.step conn op = .ok (h', conn', out))
    (hlim : ∀ l, op = .maxStreamData l → l ∈ t.advertised)
    (hack : ∀ i, op = .acked i → ∃ j ∈ ar, ∃ off d fin fill, h.r.frames[j]? = some (.stream off d fin fill) ∧
      ((h.r.frames.take j).filterMap Send.tokOf).length = i) : Pair h' t ar := by
  have g := Send.grow_step hs
  obtain ⟨fs, gf⟩ := g.frames
  obtain ⟨x, gw⟩ := g.written
  have hget : ∀ j f, h.r.frames[j]? = some f → h'.r.frames[j]? = some f ∧ h'.r.frames.take j = h.r.frames.take j := by
    intro j f hj
    have hlt := (List.getElem?_eq_some_iff.mp hj).1
    rw [gf]
    exact ⟨by rw [List.getElem?_append_left hlt]; exact hj, List.take_append_of_le_length (Nat.le_of_lt hlt)⟩
  refine ⟨?_, hp.advLe, ?_, ?_, ?_, fun hf => g.closed (hp.fin hf), ?_, ?_, ?_⟩
  · obtain ⟨l, h1, h2⟩ := hp.lim
    rcases g.limit with e | ⟨l', e1, e2⟩
    · exact ⟨l, h1, by rw [e]; exact h2⟩
    · rw [e2]
      rcases Nat.le_total h.r.limit l' with hle | hle
      · exact ⟨l', hlim l' e1, by omega⟩
      · exact ⟨l, h1, by omega⟩
  · have := hp.hi
    rw [gw]; simp; omega
  · intro off d hm
    obtain ⟨fin, fill, hf⟩ := hp.frames off d hm
    exact ⟨fin, fill, by rw [gf]; exact List.mem_append_left _ hf⟩
  · intro e he
    obtain ⟨h1, h2⟩ := hp.ends e he
    refine ⟨h1.imp g.closed g.reset, ?_⟩
    rw [Send.C20_final_size_fixed hr h1 hs]
    exact h2
  · intro e he
    obtain ⟨f, h1, h2⟩ := hp.atErr e he
    exact ⟨f, by rw [gf]; exact List.mem_append_left _ h1, h2⟩
  · intro j hj
    obtain ⟨f, h1, h2⟩ := hp.arr j hj
    exact ⟨f, (hget j f h1).1, h2⟩
  · intro i hi
    have : ∃ j ∈ ar, ∃ off d fin fill, h.r.frames[j]? = some (.stream off d fin fill) ∧
        ((h.r.frames.take j).filterMap Send.tokOf).length = i := by
      rcases g.acks i hi with hi | ⟨e, _⟩
      · exact hp.acks i hi
      · exact hack i e
    obtain ⟨j, hj, off, d, fin, fill, h1, h2⟩ := this
    exact ⟨j, hj, off, d, fin, fill, (hget j _ h1).1, by rw [(hget j _ h1).2]; exact h2⟩

theorem noted_mono {t t' : RecvS.Tr} (h1 : ∀ x ∈ t.frames, x ∈ t'.frames) (h2 : ∀ x ∈ t.ends, x ∈ t'.ends)
    {f : Send.Frame} (h : Noted t f) : Noted t' f := by
  cases f with
  | stream off d fin fill => exact ⟨h1 _ h.1, fun hf => h2 _ (h.2 hf)⟩
  | reset e f => exact h2 _ h
  | resetAt e f x => exact h2 _ h
  | blocked l => trivial

theorem pair_rcv {h : Send.Hist} {t t' : RecvS.Tr} {ar : List Nat} (hp : Pair h t ar) {ses ses' : RFc} {op : RecvS.Op}
    {o : RecvS.Out} (hop : (∀ fin off d, op ≠ .frame fin off d) ∧ (∀ err fs rel, op ≠ .reset err fs rel))
    (ht : RecvS.StrOk t) (hl : RecvS.LimOk t) (hk : RecvS.KeepsWindow t op) (hs : t.step ses op = .ok (t', ses', o)) :
    Pair h t' ar := by
  obtain ⟨a, b, c, d, e⟩ := RecvS.other_shape hop hs
  refine ⟨?_, RecvS.adv_le_step ht hl hk hs hp.advLe, by rw [a]; exact hp.hi, by rw [b]; exact hp.frames, by rw [c]; exact hp.ends,
    fun hf => hp.fin (d hf), fun x hx => hp.atErr x (e x hx), ?_, hp.acks⟩
  · obtain ⟨l, h1, h2⟩ := hp.lim
    rcases RecvS.write_adv hs with e | ⟨x, e⟩
    · exact ⟨l, by rw [e]; exact h1, h2⟩
    · exact ⟨l, by rw [e]; exact List.mem_cons_of_mem _ h1, h2⟩
  · intro j hj
    obtain ⟨f, h1, h2⟩ := hp.arr j hj
    refine ⟨f, h1, ?_⟩
    rcases h2 with h2 | h2
    · have := (RecvS.ended_step h2 hs).1
      exact .inl (by rw [show t' = t from this]; exact h2)
    · exact .inr (noted_mono (by rw [b]; exact fun _ h => h) (by rw [c]; exact fun _ h => h) h2)

theorem stream_le {h : Send.Hist} (hr : Send.Reached h) {off : Nat} {d : Bytes} {fin fill : Bool}
    (hf : Send.Frame.stream off d fin fill ∈ h.r.frames) : off + d.length ≤ h.r.written.length :=
  (Send.C17_frames_carry_written hr hf).1

theorem pair_ended {h : Send.Hist} {t : RecvS.Tr} {ar : List Nat} (hp : Pair h t ar) (he : t.st.isEnded = true) {j : Nat}
    {f : Send.Frame} (hj : h.r.frames[j]? = some f) : Pair h t (j :: ar) := by
  refine ⟨hp.lim, hp.advLe, hp.hi, hp.frames, hp.ends, hp.fin, hp.atErr, ?_, ?_⟩
  · intro i hi
    rcases List.mem_cons.mp hi with rfl | hi
    · exact ⟨f, hj, .inl he⟩
    · exact hp.arr i hi
  · intro i hi
    obtain ⟨j', h1, h2⟩ := hp.acks i hi
    exact ⟨j', List.mem_cons_of_mem _ h1, h2⟩

/-- A frame arrives. -/
theorem pair_arrive {h : Send.Hist} {t t' : RecvS.Tr} {ar : List Nat} (hp : Pair h t ar) (hr : Send.Reached h) {j : Nat}
    {f : Send.Frame} (hj : h.r.frames[j]? = some f) (ht : RecvS.StrOk t) (hl : RecvS.LimOk t) {ses ses' : RFc} {o : RecvS.Out}
    (hs : t.step ses (arrival f) = .ok (t', ses', o)) : Pair h t' (j :: ar) := by
  have hmem := List.mem_of_getElem? hj
  have hfs := Send.C20_fin_at_final_size hr
  have hacks : ∀ i ∈ h.r.acks, ∃ j' ∈ j :: ar, ∃ off d fin fill, h.r.frames[j']? = some (.stream off d fin fill) ∧
      ((h.r.frames.take j').filterMap Send.tokOf).length = i := by
    intro i hi
    obtain ⟨j', h1, h2⟩ := hp.acks i hi
    exact ⟨j', List.mem_cons_of_mem _ h1, h2⟩
  cases hend : t.st.isEnded with
  | true =>
    have := (RecvS.ended_step hend hs).1
    rw [show t' = t from this]
    exact pair_ended hp hend hj
  | false =>
    have harr : ∀ (h1 : ∀ x ∈ t.frames, x ∈ t'.frames) (h2 : ∀ x ∈ t.ends, x ∈ t'.ends) (hn : Noted t' f),
        ∀ i ∈ j :: ar, ∃ f, h.r.frames[i]? = some f ∧ (t'.st.isEnded = true ∨ Noted t' f) := by
      intro h1 h2 hn i hi
      rcases List.mem_cons.mp hi with rfl | hi
      · exact ⟨f, hj, .inr hn⟩
      · obtain ⟨g, g1, g2⟩ := hp.arr i hi
        rcases g2 with g2 | g2
        · rw [hend] at g2; cases g2
        · exact ⟨g, g1, .inr (noted_mono h1 h2 g2)⟩
    have hreset : ∀ err fs rel, (h.r.resetCalled = true ∧ fs = h.r.written.length) →
        (∃ g ∈ h.r.frames, g.resetErr = some err) → (∀ t, fs ∈ t.ends → Noted t f) →
        t.step ses (.reset err fs rel) = .ok (t', ses', o) → Pair h t' (j :: ar) := by
      intro err fs rel hfs' herr hn hs
      obtain ⟨a, b, c, d, e, g⟩ := RecvS.reset_shape hs hend
      refine ⟨by rw [d]; exact hp.lim, by rw [d]; exact hp.advLe, ?_, by rw [b]; exact hp.frames, ?_, fun hf => hp.fin (e hf), ?_,
        harr (by rw [b]; exact fun _ h => h) (by rw [c]; exact fun _ h => List.mem_cons_of_mem _ h) (hn _ (by rw [c]; simp)),
        hacks⟩
      · have := hp.hi; have := hfs'.2; omega
      · intro x hx
        rw [c] at hx
        rcases List.mem_cons.mp hx with rfl | hx
        · exact ⟨.inr hfs'.1, hfs'.2⟩
        · exact hp.ends x hx
      · intro x hx
        rcases g x hx with hx | rfl
        · exact hp.atErr x hx
        · exact herr
    cases f with
    | stream off d fin fill =>
      have hle := stream_le hr hmem
      obtain ⟨a, b, c, e, g, k⟩ := RecvS.frame_shape hs hend
      refine ⟨by rw [e]; exact hp.lim, by rw [e]; exact hp.advLe, ?_, ?_, ?_, ?_, ?_, harr ?_ ?_ ⟨?_, ?_⟩, hacks⟩
      · have := hp.hi; omega
      · intro off' d' hm
        rw [b] at hm
        rcases List.mem_cons.mp hm with hm | hm
        · cases hm; exact ⟨fin, fill, hmem⟩
        · exact hp.frames off' d' hm
      · intro x hx
        rw [c] at hx
        split at hx
        · rename_i hfin
          subst hfin
          rcases List.mem_cons.mp hx with rfl | hx
          · obtain ⟨h1, h2⟩ := hfs.1 off d fill hmem
            exact ⟨.inl h1, h2⟩
          · exact hp.ends x hx
        · exact hp.ends x hx
      · intro hf
        rcases g hf with hf | rfl
        · exact hp.fin hf
        · exact (hfs.1 off d fill hmem).1
      · intro x hx
        rw [k] at hx
        exact hp.atErr x hx
      · rw [b]; exact fun _ h => List.mem_cons_of_mem _ h
      · rw [c]; intro x hx; split
        · exact List.mem_cons_of_mem _ hx
        · exact hx
      · rw [b]; simp
      · intro hf; rw [c, if_pos hf]; simp
    | reset err fs =>
      exact hreset err fs 0 (hfs.2.1 err fs hmem) ⟨_, hmem, rfl⟩ (fun t h => h) hs
    | resetAt err fs x =>
      exact hreset err fs x (hfs.2.2 err fs x hmem) ⟨_, hmem, rfl⟩ (fun t h => h) hs
    | blocked l =>
      have h1 := pair_rcv (op := .peerBlocked) hp ⟨nofun, nofun⟩ ht hl nofun hs
      obtain ⟨a, b, c, d, e⟩ := RecvS.other_shape (op := .peerBlocked) ⟨nofun, nofun⟩ hs
      exact ⟨h1.lim, h1.advLe, h1.hi, h1.frames, h1.ends, h1.fin, h1.atErr,
        harr (by rw [b]; exact fun _ h => h) (by rw [c]; exact fun _ h => h) trivial, hacks⟩

/-! ## Frames of an honest sender are accepted -/

theorem known_ends {t : RecvS.Tr} (h : RecvS.StrOk t) (hk : t.st.known = true) : RecvS.Ends t.hi t.ends := by
  have hst := h.st
  cases hs : t.st with
  | sizeKnown fc buf => rw [hs] at hst; exact hst.2.2.2.2.2.1
  | dataRecvd fc buf => rw [hs] at hst; exact hst.2.2.2.2.2.1
  | sizeKnownAt fc buf e fs rel => rw [hs] at hst; exact hst.2.2.2.2.2.2.2.2
  | abortReading fc fsr fn e a b =>
    rw [hs] at hst hk
    simp only [RecvS.State.known] at hk
    have := hst.2.2.2
    rw [hk] at this
    exact this
  | _ => rw [hs] at hk; cases hk

theorem known_hi {h : Send.Hist} {t : RecvS.Tr} {ar : List Nat} (hp : Pair h t ar) (ht : RecvS.StrOk t)
    (hk : t.st.known = true) : t.hi = h.r.written.length := by
  have := known_ends ht hk
  cases he : t.ends with
  | nil => exact absurd he this.ne
  | cons e es =>
    have h1 := this.eq e (by rw [he]; simp)
    have h2 := (hp.ends e (by rw [he]; simp)).2
    omega

theorem final_ok {h : Send.Hist} {t : RecvS.Tr} {ar : List Nat} (hp : Pair h t ar) (ht : RecvS.StrOk t) {fin : Bool} {x : Nat}
    (hx : x ≤ h.r.written.length) (hf : fin = true → x = h.r.written.length) :
    RecvS.finalSizeOk fin t.st.known x t.hi = true := by
  have hhi := hp.hi
  cases hk : t.st.known with
  | true =>
    have := known_hi hp ht hk
    cases fin with
    | true => simp [RecvS.finalSizeOk]; have := hf rfl; omega
    | false => simp [RecvS.finalSizeOk]; omega
  | false =>
    cases fin with
    | true => simp [RecvS.finalSizeOk]; have := hf rfl; omega
    | false => rfl

theorem sum_le {ts : List RecvS.Tr} {hs : List Send.Hist} (hlen : ts.length = hs.length)
    (h : ∀ (k : Nat) t x, ts[k]? = some t → hs[k]? = some x → t.hi ≤ x.r.written.length) :
    RecvS.sumBy RecvS.Tr.hi ts ≤ Send.total hs := by
  induction ts generalizing hs with
  | nil => exact Nat.zero_le _
  | cons t ts ih =>
    cases hs with
    | nil => cases hlen
    | cons x hs =>
      have h0 := h 0 t x rfl rfl
      have := ih (hs := hs) (by simpa using hlen) (fun k t x h1 h2 => h (k + 1) t x (by simpa using h1) (by simpa using h2))
      simp only [RecvS.sumBy, Send.total, List.map_cons, List.sum_cons] at this ⊢
      omega

/-- The connection as a whole stays within the limit when a stream's use grows to `x`. -/
theorem sum_grow {ts : List RecvS.Tr} {hs : List Send.Hist} (hlen : ts.length = hs.length)
    (h : ∀ (k : Nat) t x, ts[k]? = some t → hs[k]? = some x → t.hi ≤ x.r.written.length) {k : Nat} {t : RecvS.Tr}
    {hh : Send.Hist} (hk : ts[k]? = some t) (hk' : hs[k]? = some hh) {x : Nat} (hx : x ≤ hh.r.written.length) :
    RecvS.sumBy RecvS.Tr.hi ts + (x - t.hi) ≤ Send.total hs := by
  have h0 := h k t hh hk hk'
  have h1 := sum_le (ts := ts.set k { t with hi := max t.hi x }) (hs := hs) (by simpa using hlen) (by
    intro i t' y h1 h2
    by_cases hik : k = i
    · subst hik
      rw [List.getElem?_set_self (List.getElem?_eq_some_iff.mp hk).1] at h1
      cases h1
      rw [hk'] at h2; cases h2
      simp only
      omega
    · rw [List.getElem?_set_ne hik] at h1
      exact h i t' y h1 h2)
  have h2 := RecvS.sumBy_set RecvS.Tr.hi (t' := { t with hi := max t.hi x }) hk
  simp only at h2
  omega

end Neqo.E2E
