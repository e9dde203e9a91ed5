import Verif.Lib.SMap
import Verif.Lib.Err

/-!
# Model of `RangeTracker` (`neqo-transport/src/send_stream.rs:105-462`)

Offsets are `Nat` (`u64` in the source, below `2^62`).
-/
namespace Neqo.Send

/-- `RangeState` (send_stream.rs:107-110). -/
inductive RS where
  | sent
  | acked
  deriving Repr, DecidableEq

/-- `used: BTreeMap<u64, (u64, RangeState)>`: start ↦ (length, state). -/
abbrev Used := SMap (Nat × RS)

/-- `RangeTracker` (send_stream.rs:115-124); `cache` is `first_unmarked`. -/
structure Tracker where
  acked : Nat := 0
  used : Used := []
  cache : Option (Nat × Option Nat) := none
  deriving Repr, DecidableEq

/-- `highest_offset` (send_stream.rs:127-131). -/
def Tracker.highest (t : Tracker) : Nat :=
  match t.used.getLast? with
  | some (k, (v, _)) => k + v
  | none => t.acked

/-- The loop of `first_unmarked_range` (send_stream.rs:139-157). -/
def firstGo (prevEnd : Nat) : Used → Nat × Option Nat
  | [] => (prevEnd, none)
  | (o, (l, _)) :: rest =>
    if prevEnd = o then firstGo (o + l) rest else (prevEnd, some (o - prevEnd))

/-- `first_unmarked_range` (send_stream.rs:139-157). -/
def Tracker.firstUnmarked (t : Tracker) : Tracker × (Nat × Option Nat) :=
  match t.cache with
  | some r => (t, r)
  | none =>
    let r := firstGo t.acked t.used
    ({ t with cache := some r }, r)

/-- `coalesce_acked` (send_stream.rs:161-186); always looks at the first entry. -/
def coalesce (acked : Nat) : Used → Nat × Used
  | [] => (acked, [])
  | (o, (l, s)) :: rest =>
    if acked > o then
      let overflow := o + l - acked
      if overflow > 0 then
        match s with
        | .acked => (acked + overflow, rest)
        | .sent => (acked, SMap.insert rest acked (overflow, .sent))
      else coalesce acked rest
    else if acked = o then
      match s with
      | .acked => (acked + l, rest)
      | .sent => (acked, (o, (l, s)) :: rest)
    else (acked, (o, (l, s)) :: rest)

/-- Keys of the entries starting in `[a, b)` (`range(a..b)`, send_stream.rs:217-221, 314-318). -/
def keysIn (u : Used) (a b : Nat) : List Nat :=
  (u.filter (fun e => decide (a ≤ e.1 ∧ e.1 < b))).map (·.1)

/-- `for k in covered { self.used.remove(&k); }` (send_stream.rs:248-250). -/
def eraseAll (u : Used) : List Nat → Used
  | [] => u
  | k :: ks => eraseAll (u.erase k) ks

/-- The part of `mark_acked` that deals with ranges starting in the new range or right after it
(send_stream.rs:223-250): the new end, and the map without them. -/
def absorb (u : Used) (off stop : Nat) : Nat × Used :=
  let covered := keysIn u off stop
  match u.find stop with
  | some (extra, .acked) => (stop + extra, eraseAll (u.erase stop) covered)
  | some (_, .sent) => (stop, eraseAll u covered)
  | none =>
    match covered.getLast? with
    | none => (stop, eraseAll u covered)
    | some last =>
      match u.find last with
      | none => (stop, u)   -- `expect("entry exists")`: cannot happen
      | some (l, s) =>
        let u1 := u.erase last
        let remainder := last + l - stop
        if remainder > 0 then
          match s with
          | .acked => (stop + remainder, eraseAll u1 covered.dropLast)
          | .sent => (stop, eraseAll (u1.insert stop (remainder, .sent)) covered.dropLast)
        else (stop, eraseAll u1 covered.dropLast)

/-- Merging with or cutting the range before the new acked range (send_stream.rs:252-272).
`newLen` is kept equal to `newEnd - newOff` by the source. -/
def joinPrev (u : Used) (newOff newEnd : Nat) : Used :=
  match (u.below newOff).getLast? with
  | some (po, (pl, ps)) =>
    if po + pl ≥ newOff then
      match ps with
      | .sent =>
        let u1 := u.insert po (newOff - po, .sent)
        let u2 := if po + pl > newEnd then u1.insert newEnd (po + pl - newEnd, .sent) else u1
        u2.insert newOff (newEnd - newOff, .acked)
      | .acked => u.insert po (max (po + pl) newEnd - po, .acked)
    else u.insert newOff (newEnd - newOff, .acked)
  | none => u.insert newOff (newEnd - newOff, .acked)

/-- `mark_acked` (send_stream.rs:200-271). -/
def Tracker.markAcked (t : Tracker) (off0 len : Nat) : Tracker :=
  let stop := off0 + len
  let off := max t.acked off0
  if stop - off = 0 then t
  else if off = t.acked then
    let r := coalesce (t.acked + (stop - off)) t.used
    { acked := r.1, used := r.2, cache := none }
  else
    let a := absorb t.used off stop
    { t with used := joinPrev a.2 off a.1, cache := none }

/-- The loop over covered ranges in `mark_sent` and the insertion after it
(send_stream.rs:355-385). -/
def fillSent (u : Used) (off len : Nat) : List Nat → Except Err Used
  | [] => .ok (u.insert off (len, .sent))
  | k :: ks =>
    match u.find k with
    | none => .error .panic      -- `unreachable!()`
    | some (l, .acked) =>
      if k < off then .error .panic
      else
        let chunk := k - off
        let u1 := if chunk > 0 then u.insert off (chunk, .sent) else u
        let included := chunk + l
        if len - included = 0 then .ok u1
        else fillSent u1 (off + included) (len - included) ks
    | some (l, .sent) =>
      let overhang := k + l - (off + len)
      let u1 := if k ≠ off then u.erase k else u
      fillSent u1 off (len + overhang) ks

/-- Merging with an adjacent following sent range (send_stream.rs:320-326). -/
def mergeNext (u : Used) (newEnd : Nat) : Used × Nat :=
  match u.find newEnd with
  | some (extra, .sent) => (u.erase newEnd, extra)
  | _ => (u, 0)

/-- `mark_sent` (send_stream.rs:303-386). -/
def Tracker.markSent (t : Tracker) (off0 len0 : Nat) : Except Err Tracker :=
  let newEnd := off0 + len0
  let off := max t.acked off0
  let len := newEnd - off
  if len = 0 then .ok t
  else
    let covered := keysIn t.used off (off + len)
    let m := mergeNext t.used newEnd
    let u := m.1
    let len1 := len + m.2
    let fin (r : Except Err Used) : Except Err Tracker :=
      match r with
      | .ok u' => .ok { t with used := u', cache := none }
      | .error e => .error e
    match (u.below off).getLast? with
    | some (po, (pl, ps)) =>
      if po + pl ≥ off then
        let overlap := po + pl - off
        let len2 := len1 - overlap
        if len2 = 0 then fin (.ok u)
        else
          match ps with
          | .acked => fin (fillSent u (off + overlap) len2 covered)
          | .sent => fin (fillSent u po (len2 + pl) covered)
      else fin (fillSent u off len1 covered)
    | none => fin (fillSent u off len1 covered)

/-- The backwards walk of `unmark_range` (send_stream.rs:401-441) over the entries that start
before `stop`, last one first: the map, the keys to remove and the range to add. -/
def unmarkGo (off stop : Nat) (u : Used) (rem : List Nat) (add : Option (Nat × Nat)) :
    Used → Except Err (Used × List Nat × Option (Nat × Nat))
  | [] => .ok (u, rem, add)
  | (o, (l, s)) :: rest =>
    if o < off then
      if o + l > off then
        match s with
        | .acked => .ok (u, rem, add)
        | .sent => .ok (u.insert o (off - o, .sent), rem, add)
      else .ok (u, rem, add)
    else
      match s with
      | .acked => unmarkGo off stop u rem add rest
      | .sent =>
        if o + l > stop then
          if add = none then unmarkGo off stop u (o :: rem) (some (stop, o + l - stop)) rest
          else .error .panic     -- `assert_eq!(to_add, None)`
        else unmarkGo off stop u (o :: rem) add rest

/-- `if let Some((new_k, new_v, new_s)) = to_add { … }` (send_stream.rs:447-450). -/
def addBack (u : Used) : Option (Nat × Nat) → Used
  | some (k, l) => u.insert k (l, .sent)
  | none => u

/-- `unmark_range` (send_stream.rs:388-447). -/
def Tracker.unmark (t : Tracker) (off len : Nat) : Except Err Tracker :=
  if len = 0 then .ok t
  else
    match unmarkGo off (off + len) t.used [] none (t.used.below (off + len)).reverse with
    | .error e => .error e
    | .ok (u, rem, add) =>
      .ok { t with used := addBack (eraseAll u rem) add, cache := none }

/-- `unmark_sent` (send_stream.rs:454-456). -/
def Tracker.unmarkSent (t : Tracker) : Except Err Tracker := t.unmark 0 t.highest

end Neqo.Send
