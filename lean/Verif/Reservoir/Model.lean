import Verif.Rng.Model

/-!
# Model of the streaming shuffle reservoir

* `dataset/shuffle.py` lines 12-366 (`StreamingShuffleReservoir`),
* `dataset/planner_cpp/packed_shuffle.cpp` lines 11-162 (`PackedUInt64Reservoir`),
* `dataset/packed.py` lines 12-404 (ready buffer, packed wrapper).

A Python/C++ exception is `none`.  Python `int`s that can be negative in the code (sizes, snapshot counters) are
`Int`.  The `type(x) is int` checks are discharged by typing.
-/
namespace Verif.Reservoir
open Verif.Rng (Val Digest rngU64 deterministicPermutation rejectLoop mix rowGamma leBytes)

/-- Constructor arguments (`dataset/shuffle.py:69-92`). -/
structure Cfg where
  capacity : Nat
  maxBytes : Option Int
  seed : Int
  epoch : Nat
  streamKey : List Val

/-- Arguments accepted by `__init__` (`dataset/shuffle.py:78-88`). -/
def Cfg.Valid (c : Cfg) : Prop := 0 < c.capacity ∧ ∀ m, c.maxBytes = some m → 0 < m

/-- `RESERVOIR_ALGORITHM` (`dataset/shuffle.py:12`). -/
def algorithm : String := "streaming-shuffle-reservoir-v2"

/-- `PACKED_RESERVOIR_ALGORITHM` (`dataset/packed.py:14`). -/
def packedAlgorithm : String := algorithm ++ "-uint64"

/-- `ReservoirState` (`dataset/shuffle.py:30-46`). -/
structure Snapshot (α : Type) where
  algorithm : String
  seed : Int
  epoch : Int
  streamKey : List Val
  capacity : Int
  maxBytes : Option Int
  slots : List α
  sizes : List Int
  resident : Int
  rngCounter : Int
  offered : Int
  emitted : Int
  peakOcc : Int
  peakBytes : Int
  closed : Bool

/-- Mutable fields of the reservoir (`dataset/shuffle.py:94-108`); `cache` is `_state_cache`. -/
structure Res (α : Type) where
  slots : List α
  sizes : List Int
  resident : Int
  rngCounter : Nat
  offered : Nat
  emitted : Nat
  peakOcc : Nat
  peakBytes : Int
  closed : Bool
  cache : Option (Snapshot α)

/-- Fresh reservoir (`dataset/shuffle.py:94-108`). -/
def Res.init {α : Type} : Res α := ⟨[], [], 0, 0, 0, 0, 0, 0, false, none⟩

/-- `self._rng_base` (`dataset/shuffle.py:97-101`, `dataset/packed.py:266-270`). -/
def rngBase (H : Digest) (c : Cfg) : Option Nat :=
  rngU64 H c.seed "shuffle_reservoir" (.seq [.str algorithm, .int c.epoch, .seq c.streamKey]) 0

/-- One candidate word of `_random_slot` in Python integers masked to 64 bits (`dataset/shuffle.py:144-150`). -/
def pyWord (base counter : Nat) : Nat :=
  let value := (base + counter * 0x9E3779B97F4A7C15) % 2 ^ 64
  let value := ((value ^^^ (value >>> 30)) * 0xBF58476D1CE4E5B9) % 2 ^ 64
  let value := ((value ^^^ (value >>> 27)) * 0x94D049BB133111EB) % 2 ^ 64
  value ^^^ (value >>> 31)

/-- Word supply with the counter check (`dataset/shuffle.py:142-143`). -/
def pyWords (base : Nat) (counter : Nat) : Option Nat :=
  if counter < 2 ^ 63 then some (pyWord base counter) else none

/-- `_random_slot` (`dataset/shuffle.py:138-152`): returns the slot and the advanced counter. -/
def randomSlot (base upper counter : Nat) : Option (Nat × Nat) :=
  rejectLoop (pyWords base) upper (2 ^ 63 + 1 - counter) counter

/-- `list.pop()` followed by the conditional overwrite (`dataset/shuffle.py:157-161`). -/
def removeSwap {β : Type} (l : List β) (index : Nat) : List β :=
  match l.getLast? with
  | none => []
  | some last => if index < l.length - 1 then l.dropLast.set index last else l.dropLast

/-- `_evict_slot` (`dataset/shuffle.py:154-163`); `IndexError` is `none`. -/
def evictSlot {α : Type} (r : Res α) (index : Nat) : Option (Res α × α) := do
  let item ← r.slots[index]?
  let size ← r.sizes[index]?
  some ({ r with
      slots := removeSwap r.slots index
      sizes := removeSwap r.sizes index
      resident := r.resident - size
      emitted := r.emitted + 1 }, item)

/-- `_fits` (`dataset/shuffle.py:133-136`). -/
def fits {α : Type} (c : Cfg) (r : Res α) (size : Int) : Bool :=
  match c.maxBytes with
  | none => true
  | some m => decide (r.resident + size ≤ m)

/-- `self._evict_slot(self._random_slot())` (lines 181, 219, 249). -/
def evictRandom {α : Type} (base : Nat) (r : Res α) : Option (Res α × α) := do
  let (index, counter) ← randomSlot base r.slots.length r.rngCounter
  evictSlot { r with rngCounter := counter } index

/-- `while self._slots and (len >= capacity or not fits): emitted.append(...)` (lines 178-181, 216-219).  Each
iteration removes a slot, so `len(slots)` fuel runs the loop to its end. -/
def evictWhile {α : Type} (c : Cfg) (base : Nat) (size : Int) : Nat → Res α → Option (Res α × List α)
  | 0, r => some (r, [])
  | fuel + 1, r =>
    if r.slots ≠ [] ∧ (c.capacity ≤ r.slots.length ∨ fits c r size = false) then do
      let (r', item) ← evictRandom base r
      let (r'', rest) ← evictWhile c base size fuel r'
      some (r'', item :: rest)
    else some (r, [])

/-- The argument checks of `offer`/`offer_many` (lines 169-175, 203-210). -/
def sizeOk (c : Cfg) (size : Int) : Bool :=
  decide (0 ≤ size) && (match c.maxBytes with | none => true | some m => decide (size ≤ m))

/-- Append the admitted item (lines 183-186, 220-223). -/
def admit {α : Type} (r : Res α) (item : α) (size : Int) : Res α :=
  { r with
    slots := r.slots ++ [item]
    sizes := r.sizes ++ [size]
    resident := r.resident + size
    offered := r.offered + 1 }

/-- The peak updates of `offer` (lines 187-190). -/
def updatePeaks {α : Type} (r : Res α) : Res α :=
  { r with
    peakOcc := max r.peakOcc r.slots.length
    peakBytes := max r.peakBytes r.resident }

/-- `offer` (`dataset/shuffle.py:165-191`). -/
def offer {α : Type} (H : Digest) (c : Cfg) (r : Res α) (item : α) (size : Int) : Option (Res α × List α) :=
  if r.closed then none
  else if sizeOk c size = false then none
  else do
    let base ← rngBase H c
    let r := { r with cache := none }
    let (r, out) ← evictWhile c base size r.slots.length r
    some (updatePeaks (admit r item size), out)

/-- The loop of `offer_many` with its local peak variables (lines 213-230). -/
def offerManyLoop {α : Type} (c : Cfg) (base : Nat) :
    List (α × Int) → Res α → Nat → Int → Option (Res α × Nat × Int × List α)
  | [], r, po, pb => some (r, po, pb, [])
  | (item, size) :: rest, r, po, pb => do
    let (r, out) ← evictWhile c base size r.slots.length r
    let r := admit r item size
    let (r, po, pb, out') ← offerManyLoop c base rest r (max po r.slots.length) (max pb r.resident)
    some (r, po, pb, out ++ out')

/-- `offer_many` (`dataset/shuffle.py:194-233`). -/
def offerMany {α : Type} (H : Digest) (c : Cfg) (r : Res α) (items : List (α × Int)) :
    Option (Res α × List α) :=
  if r.closed then none
  else if items.any (fun p => !sizeOk c p.2) then none
  else do
    let base ← rngBase H c
    let r := if items = [] then r else { r with cache := none }
    let (r, po, pb, out) ← offerManyLoop c base items r r.peakOcc r.peakBytes
    some ({ r with peakOcc := po, peakBytes := pb }, out)

/-- `if len(slots) >= capacity: emitted.append(...)` (lines 248-249). -/
def evictIfFull {α : Type} (c : Cfg) (base : Nat) (r : Res α) : Option (Res α × List α) :=
  if c.capacity ≤ r.slots.length then (evictRandom base r).map fun (r', x) => (r', [x])
  else some (r, [])

/-- The loop of `offer_zero_sized` (lines 247-251). -/
def offerZeroLoop {α : Type} (c : Cfg) (base : Nat) : List α → Res α → Option (Res α × List α)
  | [], r => some (r, [])
  | item :: rest, r => do
    let (r, out) ← evictIfFull c base r
    let (r, out') ← offerZeroLoop c base rest
      { r with slots := r.slots ++ [item], sizes := r.sizes ++ [0] }
    some (r, out ++ out')

/-- `offer_zero_sized` (`dataset/shuffle.py:235-254`). -/
def offerZero {α : Type} (H : Digest) (c : Cfg) (r : Res α) (items : List α) : Option (Res α × List α) :=
  if r.closed then none
  else if items = [] then some (r, [])
  else do
    let base ← rngBase H c
    let (r, out) ← offerZeroLoop c base items { r with cache := none }
    some ({ r with offered := r.offered + items.length, peakOcc := max r.peakOcc r.slots.length }, out)

/-- The drain permutation key (`dataset/shuffle.py:265-271`, `dataset/packed.py:318-324`). -/
def drainKey (c : Cfg) (offered rngCounter : Nat) : Val :=
  .seq [.str algorithm, .int c.epoch, .seq c.streamKey, .int offered, .int rngCounter]

/-- `drain` (`dataset/shuffle.py:256-279`). -/
def drain {α : Type} (H : Digest) (c : Cfg) (r : Res α) : Option (Res α × List α) :=
  if r.closed then some (r, [])
  else do
    let order ← deterministicPermutation H r.slots.length c.seed "shuffle_reservoir_drain"
      (drainKey c r.offered r.rngCounter)
    let out ← order.mapM fun i => r.slots[i]?
    some ({ r with
      slots := [], sizes := [], resident := 0, emitted := r.emitted + out.length, closed := true,
      cache := none }, out)

/-- The freshly built snapshot (`dataset/shuffle.py:283-299`). -/
def snapshot {α : Type} (c : Cfg) (r : Res α) : Snapshot α where
  algorithm := algorithm
  seed := c.seed
  epoch := c.epoch
  streamKey := c.streamKey
  capacity := c.capacity
  maxBytes := c.maxBytes
  slots := r.slots
  sizes := r.sizes
  resident := r.resident
  rngCounter := r.rngCounter
  offered := r.offered
  emitted := r.emitted
  peakOcc := r.peakOcc
  peakBytes := r.peakBytes
  closed := r.closed

/-- `state` (`dataset/shuffle.py:281-300`), with the cache. -/
def state {α : Type} (c : Cfg) (r : Res α) : Res α × Snapshot α :=
  match r.cache with
  | some s => (r, s)
  | none => ({ r with cache := some (snapshot c r) }, snapshot c r)

/-- The checks of `restore` (`dataset/shuffle.py:304-354`), in order. -/
def restoreOk {α : Type} (c : Cfg) (s : Snapshot α) : Prop :=
  s.algorithm = algorithm ∧
  (s.seed = c.seed ∧ s.epoch = c.epoch ∧ s.streamKey = c.streamKey ∧ s.capacity = c.capacity ∧
    s.maxBytes = c.maxBytes) ∧
  s.slots.length = s.sizes.length ∧
  s.slots.length ≤ c.capacity ∧
  (∀ z ∈ s.sizes, 0 ≤ z) ∧
  s.sizes.sum = s.resident ∧
  (0 ≤ s.resident ∧ 0 ≤ s.rngCounter ∧ 0 ≤ s.offered ∧ 0 ≤ s.emitted ∧ 0 ≤ s.peakOcc ∧ 0 ≤ s.peakBytes) ∧
  (∀ m, c.maxBytes = some m → s.resident ≤ m) ∧
  s.offered = s.emitted + s.slots.length ∧
  (s.closed = true → s.slots = []) ∧
  (0 ≤ s.rngCounter ∧ s.rngCounter < 2 ^ 63) ∧
  s.slots.length ≤ s.peakOcc ∧
  s.peakOcc ≤ c.capacity ∧
  s.resident ≤ s.peakBytes

open Classical in
/-- `restore` (`dataset/shuffle.py:302-366`): all checks first, then every field is replaced. -/
noncomputable def restore {α : Type} (c : Cfg) (s : Snapshot α) : Option (Res α) :=
  if restoreOk c s then
    some {
      slots := s.slots, sizes := s.sizes, resident := s.resident, rngCounter := s.rngCounter.toNat,
      offered := s.offered.toNat, emitted := s.emitted.toNat, peakOcc := s.peakOcc.toNat,
      peakBytes := s.peakBytes, closed := s.closed, cache := some s }
  else none

/-- A public mutating call. -/
inductive Op (α : Type) where
  | offer (item : α) (size : Int)
  | offerMany (items : List (α × Int))
  | offerZero (items : List α)
  | drain
  | state

/-- One public call: new reservoir and the returned items. -/
def step {α : Type} (H : Digest) (c : Cfg) (r : Res α) : Op α → Option (Res α × List α)
  | .offer x z => offer H c r x z
  | .offerMany xs => offerMany H c r xs
  | .offerZero xs => offerZero H c r xs
  | .drain => drain H c r
  | .state => some ((state c r).1, [])

/-- A history of public calls; the emitted items are concatenated in order. -/
def run {α : Type} (H : Digest) (c : Cfg) : List (Op α) → Res α → Option (Res α × List α)
  | [], r => some (r, [])
  | op :: ops, r => do
    let (r, out) ← step H c r op
    let (r, out') ← run H c ops r
    some (r, out ++ out')

/-! ### Native core -/

/-- Fields of the C++ object (`packed_shuffle.cpp:155-161`).  `offered_`/`emitted_` are `uint64_t` and wrap;
`rng_counter_` never exceeds `2^63` because of the checks, `peak_occupancy_` never exceeds the size of a vector:
these two are `Nat`. -/
structure Native where
  slots : List UInt64
  rngCounter : Nat
  offered : UInt64
  emitted : UInt64
  peakOcc : Nat
  closed : Bool

def Native.init : Native := ⟨[], 0, 0, 0, 0, false⟩

/-- `rng_base_ + counter++ * GAMMA` and the finaliser in `uint64_t` (`packed_shuffle.cpp:145-148`). -/
def nativeWord (base : UInt64) (counter : Nat) : UInt64 :=
  mix (base + UInt64.ofNat counter * rowGamma)

/-- The loop of `random_slot` (`packed_shuffle.cpp:141-151`). -/
def nativeSlotLoop (base : UInt64) (upper remainder : Nat) (limit : UInt64) : Nat → Nat → Option (Nat × Nat)
  | 0, _ => none
  | fuel + 1, counter =>
    if 2 ^ 63 ≤ counter then none
    else
      let value := nativeWord base counter
      if remainder = 0 ∨ value < limit then some (value.toNat % upper, counter + 1)
      else nativeSlotLoop base upper remainder limit fuel (counter + 1)

/-- `random_slot` (`packed_shuffle.cpp:136-152`); `upper` is a positive `uint64_t`. -/
def nativeSlot (base : UInt64) (upper counter : Nat) : Option (Nat × Nat) :=
  let remainder := 2 ^ 64 % upper
  nativeSlotLoop base upper remainder (0 - UInt64.ofNat remainder) (2 ^ 63 + 1 - counter) counter

/-- The preflight loop (`packed_shuffle.cpp:43-45`). -/
def preflight (base : UInt64) (capacity : Nat) : Nat → Nat → Option Nat
  | 0, counter => some counter
  | n + 1, counter => do
    let (_, counter) ← nativeSlot base capacity counter
    preflight base capacity n counter

/-- Body of the admission loop (`packed_shuffle.cpp:50-62`). -/
def nativeOfferLoop (base : UInt64) (capacity : Nat) : List UInt64 → List UInt64 → Nat →
    Option (List UInt64 × Nat × List UInt64)
  | [], slots, counter => some (slots, counter, [])
  | item :: rest, slots, counter =>
    if slots.length < capacity then nativeOfferLoop base capacity rest (slots ++ [item]) counter
    else do
      let (index, counter) ← nativeSlot base capacity counter
      let old ← slots[index]?
      let back ← slots.getLast?
      let slots := slots.set index back
      let slots := slots.set (slots.length - 1) item
      let (slots, counter, out) ← nativeOfferLoop base capacity rest slots counter
      some (slots, counter, old :: out)

/-- `offer` (`packed_shuffle.cpp:22-68`). -/
def nativeOffer (base : UInt64) (capacity : Nat) (n : Native) (input : List UInt64) :
    Option (Native × List UInt64) :=
  if n.closed then none
  else
    let freeSlots := capacity - n.slots.length
    let outputCount := if freeSlots < input.length then input.length - freeSlots else 0
    do
      let pre ← preflight base capacity outputCount n.rngCounter
      if 2 ^ 63 ≤ pre then none
      else do
        let (slots, counter, out) ← nativeOfferLoop base capacity input n.slots n.rngCounter
        some ({ n with
          slots := slots, rngCounter := counter,
          offered := n.offered + UInt64.ofNat input.length,
          emitted := n.emitted + UInt64.ofNat outputCount,
          peakOcc := if n.peakOcc < slots.length then slots.length else n.peakOcc }, out)

/-- The checked gather of `drain` (`packed_shuffle.cpp:81-88`), `seen` as the list of visited indices. -/
def nativeGather (slots : List UInt64) : List Nat → List Nat → Option (List UInt64)
  | [], _ => some []
  | i :: is, seen =>
    if slots.length ≤ i ∨ i ∈ seen then none
    else do
      let x ← slots[i]?
      let rest ← nativeGather slots is (i :: seen)
      some (x :: rest)

/-- `drain` of the core (`packed_shuffle.cpp:70-93`). -/
def nativeDrain (n : Native) (order : List Nat) : Option (Native × List UInt64) :=
  if n.closed then some (n, [])
  else if order.length ≠ n.slots.length then none
  else do
    let out ← nativeGather n.slots order []
    some ({ n with slots := [], emitted := n.emitted + UInt64.ofNat n.slots.length, closed := true }, out)

/-- `offer_block` of the wrapper (`dataset/packed.py:293-304`) for a block without per-record cycles and with
`default_cycle` 0 (other blocks are rejected at lines 296-299). -/
def packedOffer (H : Digest) (c : Cfg) (n : Native) (block : List UInt64) : Option (Native × List UInt64) := do
  let base ← rngBase H c
  nativeOffer (UInt64.ofNat base) c.capacity n block

/-- `drain` of the wrapper (`dataset/packed.py:306-332`). -/
def packedDrain (H : Digest) (c : Cfg) (n : Native) : Option (Native × List UInt64) :=
  if n.closed then some (n, [])
  else do
    let order ← deterministicPermutation H n.slots.length c.seed "shuffle_reservoir_drain"
      (drainKey c n.offered.toNat n.rngCounter)
    nativeDrain n order

/-- Calls on the packed reservoir. -/
inductive POp where
  | offer (items : List UInt64)
  | drain

def packedStep (H : Digest) (c : Cfg) (n : Native) : POp → Option (Native × List UInt64)
  | .offer xs => packedOffer H c n xs
  | .drain => packedDrain H c n

def packedRun (H : Digest) (c : Cfg) : List POp → Native → Option (Native × List UInt64)
  | [], n => some (n, [])
  | op :: ops, n => do
    let (n, out) ← packedStep H c n op
    let (n, out') ← packedRun H c ops n
    some (n, out ++ out')

/-- `PackedReservoirState` (`dataset/packed.py:73-98`). -/
structure PSnapshot where
  algorithm : String
  seed : Int
  epoch : Int
  streamKey : List Val
  capacity : Int
  slotsLe : List UInt8
  rngCounter : Int
  offered : Int
  emitted : Int
  peakOcc : Int
  closed : Bool

/-- `values.astype("<u8").tobytes()` (`dataset/packed.py:186,343`). -/
def idsToBytes (ids : List UInt64) : List UInt8 := ids.flatMap fun x => leBytes 8 x.toNat

/-- Little-endian value of bytes. -/
def leNat : List UInt8 → Nat
  | [] => 0
  | b :: bs => b.toNat + 256 * leNat bs

/-- `np.frombuffer(b, dtype="<u8")` (`dataset/packed.py:95,116`); the length is a multiple of eight. -/
def bytesToIds : List UInt8 → List UInt64
  | a :: b :: c :: d :: e :: f :: g :: h :: rest =>
    UInt64.ofNat (leNat [a, b, c, d, e, f, g, h]) :: bytesToIds rest
  | _ => []

/-- Snapshot of the packed reservoir (`dataset/packed.py:334-349`). -/
def packedSnapshot (c : Cfg) (n : Native) : PSnapshot where
  algorithm := packedAlgorithm
  seed := c.seed
  epoch := c.epoch
  streamKey := c.streamKey
  capacity := c.capacity
  slotsLe := idsToBytes n.slots
  rngCounter := n.rngCounter
  offered := n.offered.toNat
  emitted := n.emitted.toNat
  peakOcc := n.peakOcc
  closed := n.closed

/-- Checks of the wrapper (`dataset/packed.py:366-403`) and of the core (`packed_shuffle.cpp:112-119`);
conversion of a Python int to `uint64_t` fails outside `[0, 2^64)`.  The core compares `offered` with
`emitted + len(slots)` modulo `2^64`, which the wrapper's exact check at line 393 implies. -/
def packedRestoreOk (c : Cfg) (s : PSnapshot) : Prop :=
  (s.algorithm = packedAlgorithm ∧ s.seed = c.seed ∧ s.epoch = c.epoch ∧ s.streamKey = c.streamKey ∧
    s.capacity = c.capacity) ∧
  s.slotsLe.length % 8 = 0 ∧
  s.slotsLe.length / 8 ≤ c.capacity ∧
  (0 ≤ s.rngCounter ∧ 0 ≤ s.offered ∧ 0 ≤ s.emitted ∧ 0 ≤ s.peakOcc) ∧
  s.offered = s.emitted + (s.slotsLe.length / 8 : Nat) ∧
  ((s.slotsLe.length / 8 : Nat) ≤ s.peakOcc ∧ s.peakOcc ≤ c.capacity) ∧
  (s.closed = true → s.slotsLe.length / 8 = 0) ∧
  (s.rngCounter < 2 ^ 64 ∧ s.offered < 2 ^ 64 ∧ s.emitted < 2 ^ 64 ∧ s.peakOcc < 2 ^ 64) ∧
  s.rngCounter < 2 ^ 63

open Classical in
/-- `restore` (`dataset/packed.py:351-403`). -/
noncomputable def packedRestore (c : Cfg) (s : PSnapshot) : Option Native :=
  if packedRestoreOk c s then
    some {
      slots := bytesToIds s.slotsLe, rngCounter := s.rngCounter.toNat,
      offered := UInt64.ofNat s.offered.toNat, emitted := UInt64.ofNat s.emitted.toNat,
      peakOcc := s.peakOcc.toNat, closed := s.closed }
  else none

/-! ### Ready buffer -/

/-- `PackedUInt64ReadyBuffer` (`dataset/packed.py:121-127`). -/
structure Ready where
  chunks : List (List UInt64)
  head : Nat
  size : Nat

def Ready.init : Ready := ⟨[], 0, 0⟩

/-- `extend` (`dataset/packed.py:137-141`). -/
def Ready.extend (b : Ready) (values : List UInt64) : Ready :=
  if values.length ≠ 0 then { b with chunks := b.chunks ++ [values], size := b.size + values.length } else b

/-- `while remaining:` of the multi-chunk path (`dataset/packed.py:163-171`).  Every iteration but the last pops
a chunk, so the number of chunks bounds the iterations; an empty deque raises. -/
def popLoop : List (List UInt64) → Nat → Nat → Option (List (List UInt64) × Nat × List UInt64)
  | chunks, head, 0 => some (chunks, head, [])
  | [], _, _ + 1 => none
  | chunk :: rest, head, remaining + 1 =>
    let take := min (remaining + 1) (chunk.length - head)
    let part := (chunk.drop head).take take
    if head + take = chunk.length then do
      let (cs, h, parts) ← popLoop rest 0 (remaining + 1 - take)
      some (cs, h, part ++ parts)
    else
      -- the chunk was not exhausted: `take = remaining`, the loop ends
      if take = remaining + 1 then some (chunk :: rest, head + take, part) else none

/-- `pop` (`dataset/packed.py:143-174`). -/
def Ready.pop (b : Ready) (count : Nat) : Option (Ready × List UInt64) :=
  if b.size < count then none
  else if count = 0 then some (b, [])
  else
    match b.chunks with
    | [] => none
    | first :: rest =>
      let available := first.length - b.head
      if count ≤ available then
        let values := (first.drop b.head).take count
        if b.head + count = first.length then
          some ({ chunks := rest, head := 0, size := b.size - count }, values)
        else some ({ chunks := first :: rest, head := b.head + count, size := b.size - count }, values)
      else do
        let (cs, h, values) ← popLoop b.chunks b.head count
        some ({ chunks := cs, head := h, size := b.size - count }, values)

/-- `state` (`dataset/packed.py:176-186`): bytes of the pending ids. -/
def Ready.state (b : Ready) : List UInt8 :=
  if b.size = 0 then []
  else
    match b.chunks with
    | [] => []
    | first :: rest => idsToBytes ((first.drop b.head) ++ rest.flatten)

/-- `restore` (`dataset/packed.py:188-190`), `PackedReadyState.__post_init__` (lines 105-111). -/
def Ready.restore (bytes : List UInt8) : Option Ready :=
  if bytes.length % 8 ≠ 0 then none else some (Ready.init.extend (bytesToIds bytes))

/-- Calls on the ready buffer. -/
inductive ROp where
  | extend (values : List UInt64)
  | pop (count : Nat)
  | saveRestore

def rstep (b : Ready) : ROp → Option (Ready × List UInt64)
  | .extend v => some (b.extend v, [])
  | .pop k => b.pop k
  | .saveRestore => (Ready.restore b.state).map fun b' => (b', [])

def rrun : List ROp → Ready → Option (Ready × List UInt64)
  | [], b => some (b, [])
  | op :: ops, b => do
    let (b, out) ← rstep b op
    let (b, out') ← rrun ops b
    some (b, out ++ out')

end Verif.Reservoir
