import Verif.Sidecar.Model
import Mathlib.Data.List.Dedup

/-!
# Model of the check of a retained VQ runtime manifest (`trainer/base.py:2684-2916`)

Runs at the next save, for the manifest of an earlier checkpoint of this rank: it must be consistent in itself and its sidecar file
must be intact. The `isinstance` and key-set checks of the dictionaries are folded into the structured manifest, as in `Model.lean`.
-/
namespace Verif.Sidecar
open Verif.Ckpt (Name toInt)

/-- The condition of lines 2776-2802 on one module of the schema, negated: the set of the aliases is as large as their list. -/
def aliasesOk (model : String) (x : ModSchema) : Bool :=
  decide (x.aliases.head? = some (model, x.path)) && x.aliases.all (fun a => decide (a.1 ≠ "")) &&
    decide (x.aliases.dedup.length = x.aliases.length)

/-- The body of the inner loop at lines 2770-2839. -/
def schemaModule (model : String) (a : List ((String × String) × ModSchema)) (x : ModSchema) :
    Except String (List ((String × String) × ModSchema)) :=
  if aliasesOk model x = false then .error "retained state has malformed VQ runtime schema"
  else if (dtypeBytes x.desc.paramDtype).isSome = false then .error "retained state has malformed VQ runtime descriptor"
  else if a.any (fun e => decide (e.1 = (model, x.path))) = true then .error "retained state has duplicate VQ runtime modules"
  else .ok (a ++ [((model, x.path), x)])

/-- The body of the outer loop at lines 2755-2839. -/
def schemaModel (a : List String × List ((String × String) × ModSchema)) (m : String × List ModSchema) :
    Except String (List String × List ((String × String) × ModSchema)) :=
  if m.1 = "" ∨ a.1.any (fun n => decide (n = m.1)) = true then .error "retained state has malformed VQ runtime schema"
  else match loop (schemaModule m.1) a.2 m.2 with
  | .error e => .error e
  | .ok d => .ok (a.1 ++ [m.1], d)

/-- The body of the loop at lines 2849-2896. -/
def retainedStat (descs : List ((String × String) × ModSchema)) (mode : String) (a : VAcc) (s : Stat) : Except String VAcc :=
  match findKey descs (s.model, s.path) with
  | none => .error "retained state has missing, duplicate, or unexpected VQ runtime modules"
  | some d =>
    if a.seen.any (fun e => decide (e.1 = (s.model, s.path))) = true then
      .error "retained state has missing, duplicate, or unexpected VQ runtime modules"
    else match expectedDtype d.desc s.count mode with
    | .error x => .error x
    | .ok want =>
      match dtypeBytes s.dtype with
      | none => .error "retained state has invalid VQ runtime storage statistics"
      | some w =>
        if d.desc.target < s.count ∨ s.rawBytes ≠ s.count * d.desc.dimFeature * w ∨ (d.inited = true ∧ s.count ≠ 0) ∨ s.dtype ≠ want then
          .error "retained state has invalid VQ runtime storage statistics"
        else .ok { seen := a.seen ++ [((s.model, s.path), s)], raw := a.raw + s.rawBytes,
                   maxRaw := a.maxRaw + d.desc.target * d.desc.dimFeature * w, partly := a.partly || decide (0 < s.count) }

/-- The condition of lines 2714-2729, negated. -/
def identityOk (m : Manifest) (iteration rank : Nat) : Bool :=
  decide (m.version = 1) && groupsAre (matchSidecar m.basename) iteration m.generation rank && decide (m.iteration = iteration) &&
    decide (m.rank = rank) && decide (m.autocast ≠ "") && hexOk 32 m.generation && hexOk 64 m.sha

/-- The condition of lines 2902-2911, negated; every key of `stats_by_key` is one of `descriptor_by_key`. -/
def boundsOk (m : Manifest) (descs : List ((String × String) × ModSchema)) (a : VAcc) : Bool :=
  descs.all (fun e => a.seen.any fun k => decide (k.1 = e.1)) && decide (m.hasPartial = a.partly) && decide (m.rawBytes = a.raw) &&
    decide (m.maximumBytes = a.maxRaw + allowance a.maxRaw) && decide (m.size ≤ a.maxRaw + allowance a.maxRaw) &&
    decide (m.size ≤ a.raw + allowance a.raw)

/-- `_validate_retained_vq_runtime_manifest` (base.py:2684-2933): the basename returned, or the error. -/
def retained {V : Type} (x : Ext V) (dir : Dir) (m : Manifest) (iteration rank : Nat) : Except String Name :=
  if identityOk m iteration rank = false then .error "retained state has malformed VQ runtime identity"
  else match loop schemaModel ([], []) m.schema with
  | .error e => .error e
  | .ok (_, descs) =>
    match loop (retainedStat descs m.autocast) ⟨[], 0, 0, false⟩ m.modules with
    | .error e => .error e
    | .ok a =>
      if boundsOk m descs a = false then .error "retained state has invalid VQ runtime storage bounds"
      else match dir m.basename with
      | none => .error "no such file"
      | some b =>
        if b.length ≠ m.size then .error "retained VQ runtime sidecar has wrong size"
        else if x.sha b ≠ m.sha then .error "retained VQ runtime sidecar SHA-256 differs"
        else .ok m.basename

end Verif.Sidecar
