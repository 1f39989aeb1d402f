/-
Model of `_LatencyHistogram` and of the counters of `PipelineStats` (dataset/telemetry.py:164-447).
-/
namespace Verif.Telemetry

/-- `_LATENCY_BUCKETS_NS` (telemetry.py:38-55). -/
def buckets : List Int :=
  [10000, 25000, 50000, 100000, 250000, 500000, 1000000, 2500000, 5000000, 10000000, 25000000, 50000000,
    100000000, 250000000, 500000000, 1000000000]

/-- `_LatencyHistogram` (telemetry.py:164-170). -/
structure Hist where
  counts : List Nat
  total : Int
  maximum : Int
deriving DecidableEq, Repr

def Hist.new : Hist := ⟨List.replicate (buckets.length + 1) 0, 0, 0⟩

/-- `np.searchsorted(_LATENCY_BUCKETS_NS, x, side="left")` on the sorted bounds. -/
def searchLeft (x : Int) : Nat := buckets.countP (fun b => decide (b < x))

/-- `add` (telemetry.py:172-177). -/
def Hist.add (h : Hist) (elapsed : Int) : Hist :=
  let e := max 0 elapsed
  let index := searchLeft e
  { counts := h.counts.modify index (· + 1), total := h.total + e, maximum := max h.maximum e }

/-- `clear` (telemetry.py:179-182). -/
def Hist.clear (h : Hist) : Hist := ⟨List.replicate h.counts.length 0, 0, 0⟩

/-- `count` (telemetry.py:184-185). -/
def Hist.count (h : Hist) : Nat := h.counts.sum

/-- The loop of `percentile_ns` (telemetry.py:192-201). -/
def scanCounts (maximum : Int) (target : Nat) : List Nat → Nat → Nat → Int
  | [], _, _ => maximum
  | c :: cs, index, cumulative =>
      if cumulative + c ≥ target then
        (if index = buckets.length then maximum else buckets.getD index 0)
      else scanCounts maximum target cs (index + 1) (cumulative + c)

/-- `percentile_ns` (telemetry.py:187-201); `rank` is `int(np.ceil(count * percentile))`. -/
def Hist.percentile (h : Hist) (rank : Int) : Int :=
  if h.count = 0 then 0 else scanCounts h.maximum (max 1 rank).toNat h.counts 0 0

end Verif.Telemetry
