import Verif.Qpack.Model
import Verif.Qpack.Static

/-!
# The dynamic table (neqo-qpack/src/table.rs)

Numbers are natural numbers: the counters of the code are `u64`, and the code does not check that they do not
overflow when an entry is inserted.  The table of a decoder has all inserts acknowledged
(`acked_inserts_cnt` is `u64::MAX`, table.rs:99); here this is `none`.
-/
namespace Neqo.Qp
open Neqo.Codec

/-- `ADDITIONAL_TABLE_ENTRY_SIZE` (table.rs:19). -/
def entryOverhead : Nat := 32

/-- `DynamicTableEntry` (table.rs:28-35). -/
structure DEntry where
  base : Nat
  name : Bytes
  value : Bytes
  refs : Nat
deriving DecidableEq, Repr

/-- `DynamicTableEntry::can_reduce` (table.rs:38-40). -/
def DEntry.canReduce (acked : Option Nat) (e : DEntry) : Bool :=
  decide (e.refs = 0) && acked.all (fun a => decide (e.base < a))

/-- `DynamicTableEntry::size` (table.rs:42-44). -/
def DEntry.size (e : DEntry) : Nat := e.name.length + e.value.length + entryOverhead

/-- `HeaderTable` (table.rs:69-81).  The entries are in the order in which they were inserted: the code has the
newest one at the front. -/
structure Table where
  dyn : List DEntry
  capacity : Nat
  used : Nat
  base : Nat
  acked : Option Nat
deriving DecidableEq, Repr

/-- `HeaderTable::new` (table.rs:94-102). -/
def Table.new (encoder : Bool) : Table := ⟨[], 0, 0, 0, if encoder then some 0 else none⟩

/-- `HeaderTable::get_static` (table.rs:135-138). -/
def getStatic (i : Nat) : Except Err SEntry :=
  match staticTable[i]? with
  | some e => .ok e
  | none => .error .headerLookup

/-- The place of an entry in `dyn`, counted from the newest (table.rs:149, 154). -/
def Table.place (t : Table) (inx : Nat) : Option Nat :=
  if inx < t.dyn.length then some (t.dyn.length - 1 - inx) else none

/-- `get_dynamic_with_abs_index` (table.rs:140-148), the place of the entry; an index that is not below `base` is
an internal error that debug builds notice. -/
def Table.placeAbs (t : Table) (i : Nat) : Except Err Nat :=
  if t.base ≤ i then .error .panic
  else match t.place (t.base - i - 1) with
    | some p => .ok p
    | none => .error .headerLookup

/-- `get_dynamic_with_relative_index` (table.rs:150-153). -/
def Table.getRel (t : Table) (inx : Nat) : Except Err DEntry :=
  match t.place inx with
  | some p =>
    match t.dyn[p]? with
    | some e => .ok e
    | none => .error .headerLookup
  | none => .error .headerLookup

/-- `get_dynamic` (table.rs:160-179). -/
def Table.getDynamic (t : Table) (index base : Nat) (post : Bool) : Except Err DEntry :=
  if post then
    if base + index + 1 ≥ 2 ^ 64 then .error .integerOverflow
    else if t.base < base + index + 1 then .error .headerLookup
    else t.getRel (t.base - (base + index + 1))
  else
    if t.base + index ≥ 2 ^ 64 then .error .integerOverflow
    else if t.base + index < base then .error .headerLookup
    else t.getRel (t.base + index - base)

/-- `remove_ref` (table.rs:182-187, 50-53). -/
def Table.removeRef (t : Table) (i : Nat) : Except Err Table :=
  match t.placeAbs i with
  | .error _ => .error .panic
  | .ok p =>
    match t.dyn[p]? with
    | none => .error .panic
    | some e => if e.refs = 0 then .error .panic else .ok { t with dyn := t.dyn.set p { e with refs := e.refs - 1 } }

/-- `add_ref` (table.rs:190-195, 46-48). -/
def Table.addRef (t : Table) (i : Nat) : Except Err Table :=
  match t.placeAbs i with
  | .error _ => .error .panic
  | .ok p =>
    match t.dyn[p]? with
    | none => .error .panic
    | some e => .ok { t with dyn := t.dyn.set p { e with refs := e.refs + 1 } }

/-- `LookupResult` (table.rs:21-25). -/
structure Found where
  index : Nat
  isStatic : Bool
  valueMatches : Bool
deriving DecidableEq, Repr

/-- The loop of `static_lookup` (table.rs:206-226). -/
def staticLoop (name value : Bytes) : List SEntry → Option Found → Option Found
  | [], m => m
  | e :: es, m =>
    if e.name = name then
      if e.value = value then some ⟨e.index, true, true⟩
      else staticLoop name value es (m.or (some ⟨e.index, true, false⟩))
    else staticLoop name value es m

/-- `static_lookup` (table.rs:206-226). -/
def staticLookup (name value : Bytes) : Option Found := staticLoop name value staticTable none

/-- The loop of `lookup` (table.rs:231-262), over the newest entries first. -/
def dynLoop (acked : Option Nat) (canBlock : Bool) (name value : Bytes) : List DEntry → Option Found → Option Found
  | [], m => m
  | e :: es, m =>
    if !canBlock && acked.any (fun a => decide (a ≤ e.base)) then dynLoop acked canBlock name value es m
    else if e.name = name then
      if e.value = value then some ⟨e.base, false, true⟩
      else dynLoop acked canBlock name value es (m.or (some ⟨e.base, false, false⟩))
    else dynLoop acked canBlock name value es m

/-- `lookup` (table.rs:231-262). -/
def Table.lookup (t : Table) (name value : Bytes) (canBlock : Bool) : Option Found :=
  let s := staticLookup name value
  if s.any Found.valueMatches then s else dynLoop t.acked canBlock name value t.dyn.reverse s

/-- The loop of `evict_to` (table.rs:264-280), over the oldest entries first. -/
def evictLoop (acked : Option Nat) (reduce : Nat) : List DEntry → Nat → Except Err (Bool × List DEntry × Nat)
  | [], used => .ok (true, [], used)
  | e :: es, used =>
    if used ≤ reduce then .ok (true, e :: es, used)
    else if !e.canReduce acked then .ok (false, e :: es, used)
    else if used < e.size then .error .panic
    else evictLoop acked reduce es (used - e.size)

/-- `evict_to` (table.rs:264-280). -/
def Table.evictTo (t : Table) (reduce : Nat) : Except Err (Bool × Table) :=
  match evictLoop t.acked reduce t.dyn t.used with
  | .error e => .error e
  | .ok (b, d, u) => .ok (b, { t with dyn := d, used := u })

/-- `can_evict_to` (table.rs:282-292). -/
def Table.canEvictTo (t : Table) (reduce : Nat) : Except Err Bool :=
  let s := ((t.dyn.takeWhile (fun e => e.canReduce t.acked)).map DEntry.size).sum
  if t.used < s then .error .panic else .ok (decide (t.used - s ≤ reduce))

/-- `insert_possible` (table.rs:294-297). -/
def Table.insertPossible (t : Table) (size : Nat) : Except Err Bool :=
  if size ≤ t.capacity then t.canEvictTo (t.capacity - size) else .ok false

/-- `set_capacity` (table.rs:121-128); `false` stands for `Error::ChangeCapacity`. -/
def Table.setCapacity (t : Table) (cap : Nat) : Except Err (Bool × Table) :=
  match t.evictTo cap with
  | .error e => .error e
  | .ok (false, t) => .ok (false, t)
  | .ok (true, t) => .ok (true, { t with capacity := cap })

/-- `insert` (table.rs:305-323); `none` stands for `Error::DynamicTableFull`. -/
def Table.insert (t : Table) (name value : Bytes) : Except Err (Option Nat × Table) :=
  let e : DEntry := ⟨t.base, name, value, 0⟩
  if e.size > t.capacity then .ok (none, t)
  else
    match t.evictTo (t.capacity - e.size) with
    | .error e => .error e
    | .ok (false, t) => .ok (none, t)
    | .ok (true, t) => .ok (some e.base, { t with base := t.base + 1, used := t.used + e.size, dyn := t.dyn ++ [e] })

/-- `insert_with_name_ref` (table.rs:332-354). -/
def Table.insertWithNameRef (t : Table) (isStatic : Bool) (i : Nat) (value : Bytes) : Except Err (Option Nat × Table) :=
  if isStatic then
    match getStatic i with
    | .error e => .error e
    | .ok s => t.insert s.name value
  else
    match t.getDynamic i t.base false with
    | .error e => .error e
    | .ok d => t.insert d.name value

/-- `duplicate` (table.rs:363-375). -/
def Table.duplicate (t : Table) (i : Nat) : Except Err (Option Nat × Table) :=
  match t.getDynamic i t.base false with
  | .error e => .error e
  | .ok d => t.insert d.name d.value

/-- `increment_acked` (table.rs:382-393); only the encoder uses it. -/
def Table.incrementAcked (t : Table) (n : Nat) : Except Err Table :=
  match t.acked with
  | none => .error .incrementAck
  | some a => if a + n ≥ 2 ^ 64 ∨ t.base < a + n then .error .incrementAck else .ok { t with acked := some (a + n) }

end Neqo.Qp
