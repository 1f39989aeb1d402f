/-
Model of the decoded-array cache of `ProcessedNpzDecoder` (dataset/decoder.py:63-84, 346-412): worker
threads calling `_load` concurrently, and `configure_cache`.

Blocks under `with self._array_cache_condition` are atomic steps.  Paths are canonical (`os.path.abspath`
has been applied).  `OrderedDict` is a list of entries, least recently used first.
-/
namespace Verif.Telemetry

/-- A cached value: the arrays, whether all of them are memory maps (`_is_mmap_cache_entry`,
decoder.py:372-375), and their total `nbytes`. -/
structure Entry (α : Type) where
  arrays : α
  mmap : Bool
  bytes : Nat
deriving DecidableEq, Repr

/-- Outcome of `_load`: arrays, or the exception of `_load_uncached`. -/
inductive Outcome (α : Type) where
  | ok (e : Entry α)
  | error
deriving DecidableEq, Repr

abbrev Values (P α : Type) := List (P × Entry α)

section
variable {P α : Type} [DecidableEq P]

/-- `evict_oldest` (decoder.py:378-388): delete the first entry of the given kind; `none` is the
`RuntimeError`. -/
def evictOldest (mmapEntry : Bool) : Values P α → Option (Values P α)
  | [] => none
  | x :: xs => if x.2.mmap == mmapEntry then some xs else (evictOldest mmapEntry xs).map (x :: ·)

/-- The first `while` loop (decoder.py:395-397); the argument is `mmap_count`. -/
def evictMmap (capacity : Nat) : Nat → Values P α → Option (Values P α)
  | 0, vs => some vs
  | n + 1, vs => if n + 1 > capacity then do evictMmap capacity n (← evictOldest true vs) else some vs

/-- Bytes of the first entry that is not memory mapped (decoder.py:407-410). -/
def oldestBytes (vs : Values P α) : Nat := ((vs.find? fun x => !x.2.mmap).map (·.2.bytes)).getD 0

/-- The second `while` loop (decoder.py:403-412); the arguments are `loaded_count` and `loaded_bytes`. -/
def evictLoaded (capacity byteCapacity : Nat) : Nat → Nat → Values P α → Option (Values P α)
  | 0, _, vs => some vs
  | n + 1, bytes, vs =>
      if n + 1 > 1 ∧ (n + 1 > capacity ∨ bytes > byteCapacity) then do
        let bytes' := bytes - oldestBytes vs
        evictLoaded capacity byteCapacity n bytes' (← evictOldest false vs)
      else some vs

/-- Bytes of the entries that are not memory mapped (decoder.py:398-402). -/
def loadedBytes (vs : Values P α) : Nat := ((vs.filter fun x => !x.2.mmap).map (·.2.bytes)).sum

/-- `_evict_array_cache` (decoder.py:377-412). -/
def evict (mmapCapacity capacity byteCapacity : Nat) (vs : Values P α) : Option (Values P α) := do
  let mmapCount := vs.countP (·.2.mmap)
  let loadedCount := vs.length - mmapCount
  let vs ← evictMmap mmapCapacity mmapCount vs
  evictLoaded capacity byteCapacity loadedCount (loadedBytes vs) vs

/-- Where a thread is in `_load`. -/
inductive LoadPhase (P α : Type) where
  | out (last : Option (P × Outcome α))
  /-- before the test of `while canonical in self._array_cache_loading` (decoder.py:349) -/
  | entering (p : P)
  /-- in `wait()` (decoder.py:350), not notified -/
  | asleep (p : P)
  /-- inside `_load_uncached` (decoder.py:357) -/
  | loading (p : P)
  /-- `_load_uncached` has ended; before the lock is taken again (decoder.py:359, 363) -/
  | loaded (p : P) (r : Outcome α)
deriving DecidableEq, Repr

/-- The decoder's cache state (decoder.py:63-68) and the threads.  `used` is not in the code: the paths
in the order in which the cache served or stored them. -/
structure Decoder (P α : Type) where
  capacity : Nat
  byteCapacity : Nat
  mmapCapacity : Nat
  values : Values P α
  loading : List P
  threads : List (LoadPhase P α)
  used : List P
deriving DecidableEq, Repr

/-- Initial state with `n` threads (decoder.py:63-68). -/
def Decoder.new (P α : Type) (n : Nat) : Decoder P α :=
  ⟨6, 1152 * 1024 * 1024, 16, [], [], List.replicate n (.out none), []⟩

/-- `notify_all()`. -/
def wakeLoads (ts : List (LoadPhase P α)) : List (LoadPhase P α) :=
  ts.map fun
    | .asleep p => .entering p
    | x => x

/-- `self._array_cache_values[canonical] = arrays; move_to_end` — also `move_to_end` on a hit. -/
def moveToEnd (vs : Values P α) (p : P) (e : Entry α) : Values P α := vs.filter (·.1 ≠ p) ++ [(p, e)]

inductive LoadAct (P α : Type) where
  | call (i : Nat) (p : P)
  | test (i : Nat)
  | fetch (i : Nat) (r : Outcome α)
  | publish (i : Nat)
  | configure (entries byteCapacity : Nat)

/-- One atomic step; `none` when the action is not possible (or the eviction raised). -/
def Decoder.step (d : Decoder P α) : LoadAct P α → Option (Decoder P α)
  | .call i p =>
      match d.threads[i]? with
      | some (.out _) => some { d with threads := d.threads.set i (.entering p) }
      | _ => none
  -- decoder.py:348-355
  | .test i =>
      match d.threads[i]? with
      | some (.entering p) =>
          if p ∈ d.loading then some { d with threads := d.threads.set i (.asleep p) }
          else match d.values.find? (·.1 = p) with
            | some (_, e) => some { d with
                values := moveToEnd d.values p e
                used := d.used ++ [p]
                threads := d.threads.set i (.out (some (p, .ok e))) }
            | none => some { d with
                loading := d.loading ++ [p]
                threads := d.threads.set i (.loading p) }
      | _ => none
  -- `_load_uncached` returns or raises (decoder.py:356-358)
  | .fetch i r =>
      match d.threads[i]? with
      | some (.loading p) => some { d with threads := d.threads.set i (.loaded p r) }
      | _ => none
  -- decoder.py:358-370
  | .publish i =>
      match d.threads[i]? with
      | some (.loaded p .error) => some { d with
          loading := d.loading.filter (· ≠ p)
          threads := wakeLoads (d.threads.set i (.out (some (p, .error)))) }
      | some (.loaded p (.ok e)) => do
          let values ← evict d.mmapCapacity d.capacity d.byteCapacity (moveToEnd d.values p e)
          some { d with
            values := values
            used := d.used ++ [p]
            loading := d.loading.filter (· ≠ p)
            threads := wakeLoads (d.threads.set i (.out (some (p, .ok e)))) }
      | _ => none
  -- `configure_cache` (decoder.py:75-84)
  | .configure entries byteCapacity =>
      if entries = 0 ∨ byteCapacity = 0 then none
      else do
        let values ← evict d.mmapCapacity entries byteCapacity d.values
        some { d with capacity := entries, byteCapacity := byteCapacity, values := values }

/-- Run a schedule. -/
def Decoder.exec (d : Decoder P α) : List (LoadAct P α) → Option (Decoder P α)
  | [] => some d
  | a :: as => do (← d.step a).exec as

end
end Verif.Telemetry
