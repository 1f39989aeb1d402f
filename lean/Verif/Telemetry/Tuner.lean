/-
Model of `PipelineAutotuner` (dataset/telemetry.py:684-968) and of the wiring in
`dataset/katago.py:817-941`.

Metric values are floats and enter the controller only through comparisons, so an observation is the
vector of comparison outcomes (NaN included).  Files written by the controller are not part of this
model (`Verif.Telemetry.Store` models the profile store); only whether saving the profile failed.
-/
namespace Verif.Telemetry

/-- The tuned settings (telemetry.py:704-709). -/
structure Settings where
  threads : Int
  batches : Int
  entries : Int
  bytes : Int
deriving DecidableEq, Repr

/-- Names present in `locked_options` (telemetry.py:702). -/
structure Locked where
  threads : Bool
  batches : Bool
  entries : Bool
  bytes : Bool

/-- `PipelineAutotuneConfig` (telemetry.py:95-109), the fields the controller reads apart from the
float thresholds. -/
structure Config where
  warmup : Int
  verify : Int
  interval : Int
  freezeAfter : Int
  maxThreads : Int
  maxBatches : Int
  budget : Int

/-- The integer checks of `PipelineAutotuneConfig.parse` (telemetry.py:130-156). -/
def Config.Parsed (c : Config) : Prop :=
  0 ≤ c.warmup ∧ 0 ≤ c.verify ∧ 1 ≤ c.interval ∧ 1 ≤ c.freezeAfter ∧ 1 ≤ c.maxThreads
    ∧ 1 ≤ c.maxBatches ∧ 1 ≤ c.budget

/-- `self.reused`. -/
inductive Reuse where
  | exact | compatible
deriving DecidableEq, Repr

/-- Entries of `self.decisions` (telemetry.py:781-801, 834-841, 905-916). -/
inductive Decision where
  | freeze (iteration : Int)
  | writeFailed (iteration : Int)
  | invalidate (iteration : Int)
  | adjust (iteration : Int) (before after : Settings)
deriving DecidableEq, Repr

/-- The mutable state of the controller, with its keys (telemetry.py:699-716). -/
structure Tuner where
  exactKey : String
  compatibleKey : String
  settings : Settings
  reused : Option Reuse
  frozen : Bool
  started : Option Int
  last : Option Int
  decisions : List Decision
deriving DecidableEq, Repr

/-- What one `update` call reads from its metrics: `healthy` (telemetry.py:825-828), `cache/reloads > 0`,
`queue_depth >= prefetch_batches * 0.7`, `headroom >= target * 2`, and whether storing the profile
raised `OSError` (telemetry.py:790-801). -/
structure Obs where
  healthy : Bool
  reloads : Bool
  queueFull : Int → Bool
  excess : Bool
  saveFails : Bool

/-- `_clamp_settings` (telemetry.py:725-738). -/
def clamp (c : Config) (s : Settings) : Settings where
  threads := min (max 1 s.threads) c.maxThreads
  batches := min (max 1 s.batches) c.maxBatches
  entries := max 1 s.entries
  bytes := min (max 1 s.bytes) c.budget

/-- The `resolved` part of a stored profile: the values present under the four names. -/
structure Profile where
  threads : Option Int
  batches : Option Int
  entries : Option Int
  bytes : Option Int

/-- `for name, value in profile["resolved"].items(): …` (telemetry.py:719-722). -/
def applyProfile (l : Locked) (p : Profile) (s : Settings) : Settings where
  threads := if l.threads then s.threads else p.threads.getD s.threads
  batches := if l.batches then s.batches else p.batches.getD s.batches
  entries := if l.entries then s.entries else p.entries.getD s.entries
  bytes := if l.bytes then s.bytes else p.bytes.getD s.bytes

/-- Constructor (telemetry.py:699-723); `found` is what the profile store returned. -/
def create (c : Config) (l : Locked) (initial : Settings) (exactKey compatibleKey : String)
    (found : Option (Profile × Reuse)) : Tuner where
  exactKey := exactKey
  compatibleKey := compatibleKey
  settings := clamp c (match found with
    | some (p, _) => applyProfile l p initial
    | none => initial)
  reused := found.map (·.2)
  frozen := false
  started := none
  last := none
  decisions := []

/-- `_freeze` (telemetry.py:778-802). -/
def freeze (t : Tuner) (o : Obs) (iteration : Int) : Tuner :=
  { t with
    frozen := true
    last := some iteration
    decisions := t.decisions ++ [.freeze iteration]
      ++ (if o.saveFails then [.writeFailed iteration] else []) }

/-- The unhealthy branch (telemetry.py:850-880); `grow` is `int(cache_bytes * 1.25)`. -/
def raise (c : Config) (l : Locked) (grow : Int → Int) (o : Obs) (s : Settings) : Settings :=
  if !l.threads ∧ s.threads < c.maxThreads then { s with threads := s.threads + 1 }
  else if !l.batches ∧ s.batches < c.maxBatches then
    { s with batches := min c.maxBatches (max (s.batches + 1) (s.batches * 2)) }
  else if o.reloads ∧ !l.bytes ∧ s.bytes < c.budget then
    { s with
      entries := s.entries + 1
      bytes := min c.budget (max (s.bytes + 128 * 1024 ^ 2) (grow s.bytes)) }
  else s

/-- The healthy branch (telemetry.py:881-902). -/
def lower (l : Locked) (o : Obs) (s : Settings) : Settings :=
  let minimumDepth := max 2 (s.threads * 2)
  if !l.batches ∧ s.batches > minimumDepth ∧ o.queueFull s.batches ∧ o.excess then
    { s with batches := max minimumDepth (s.batches / 2) }
  else if !l.threads ∧ s.threads > 1 ∧ o.excess then { s with threads := s.threads - 1 }
  else s

/-- The tail of `update` after the reuse check (telemetry.py:844-924). -/
def adjust (c : Config) (l : Locked) (grow : Int → Int) (t : Tuner) (o : Obs) (iteration elapsed : Int) :
    Tuner :=
  if elapsed ≥ c.freezeAfter then freeze t o iteration
  else
    let after := clamp c (if o.healthy then lower l o t.settings else raise c l grow o t.settings)
    if after ≠ t.settings then
      { t with
        settings := after
        decisions := t.decisions ++ [.adjust iteration t.settings after] }
    else if o.healthy then freeze { t with settings := after } o iteration
    else { t with settings := after }

/-- `update` (telemetry.py:803-924); the flag says whether a state dictionary (rather than `None`) was
returned. -/
def update (c : Config) (l : Locked) (grow : Int → Int) (t : Tuner) (o : Obs) (iteration : Int) :
    Tuner × Bool :=
  let start := t.started.getD iteration
  let t := { t with started := some start }
  let elapsed := max 0 (iteration - start)
  let minimum := if t.reused.isSome then c.verify else c.warmup
  if t.frozen ∨ elapsed < minimum then (t, false)
  else if t.last.any (fun last => iteration - last < c.interval) then (t, false)
  else
    let t := { t with last := some iteration }
    if t.reused.isSome ∧ elapsed ≥ c.verify then
      if o.healthy then (freeze t o iteration, true)
      else (adjust c l grow { t with
        reused := none
        decisions := t.decisions ++ [.invalidate iteration] } o iteration elapsed, true)
    else (adjust c l grow t o iteration elapsed, true)

/-- `state_dict` (telemetry.py:926-937): the whole state. -/
def stateDict (t : Tuner) : Tuner := t

/-- `load_state_dict` (telemetry.py:939-968); `none` is the `ValueError` for foreign keys.  The type
checks on the dictionary are not modelled: a state is a state written by `state_dict`. -/
def loadStateDict (c : Config) (t : Tuner) (s : Tuner) : Option Tuner :=
  if s.exactKey ≠ t.exactKey ∨ s.compatibleKey ≠ t.compatibleKey then none
  else some { s with settings := clamp c s.settings }

/-- The checks and the locked names of `katago.py:821-843, 920-924`; `none` is the `ValueError`. -/
def wire (c : Config) (respectExplicit explicitThreads explicitBatches : Bool) (threads batches : Int) :
    Option Locked :=
  if threads ≤ 0 then none
  else if respectExplicit ∧ explicitThreads ∧ threads > c.maxThreads then none
  else if respectExplicit ∧ explicitBatches ∧ batches > c.maxBatches then none
  else some ⟨respectExplicit && explicitThreads, respectExplicit && explicitBatches, false, false⟩

end Verif.Telemetry
