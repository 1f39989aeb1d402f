import Verif.Decode.Batch

/-!
# C74: decoding a batch at once gives the same samples as decoding its rows one by one

The specification is `decodeOne` (dataset/decoder.py:459-514: one reference in, one sample out, nothing else) followed by `stack`; every fast path —
the vectorised one-file path with its slices, the grouping of several files, whole chunks of batches, packed requests — must agree with it.
-/
namespace Verif.Decode
open Verif.Board Verif.Rng

variable {α : Type}

/-- The references agree with the files that load: those are rectangular and have the announced board size. -/
def RefsOk (c : Cfg α) (refs : List Ref) : Prop :=
  ∀ r ∈ refs, ∀ a, c.load r.path = some a → WellFormed a ∧ r.bh = a.h ∧ r.bw = a.w

theorem flatBatch_eq [Zero α] (c : Cfg α) (hc : c.fixedSize = none) (hv : ValidSeed c) (refs : List Ref) (hne : refs ≠ []) (hok : RefsOk c refs) :
    flatBatch c refs = (refs.mapM (decodeOne c)).bind stack := by
  have hshape : ∀ x ∈ refs, ∀ y ∈ refs, x.path = y.path → ∀ a b, decodeOne c x = some a → decodeOne c y = some b → a.shape = b.shape := by
    intro x hx y hy hp a b ha hb
    cases hl : c.load x.path with
    | none => simp [decodeOne, hl] at ha
    | some A => exact decodeOne_shape hc (hok x hx A hl).1 hl (by rw [← hp]; exact hl) ha hb
  have hgroup : ∀ path, (∃ x ∈ refs, x.path = path) →
      ((c.load path).bind fun a => loadedBatch c a (refs.filter fun r => decide (r.path = path))) =
        (refs.filter fun r => decide (r.path = path)).mapM (decodeOne c) := by
    intro path ⟨x, hx, hxp⟩
    have hmem : x ∈ refs.filter fun r => decide (r.path = path) := List.mem_filter.mpr ⟨hx, by simpa using hxp⟩
    have hpath : ∀ r ∈ refs.filter fun r => decide (r.path = path), r ∈ refs ∧ r.path = path := fun r hr => by
      simpa using List.mem_filter.mp hr
    cases hl : c.load path with
    | none =>
      rw [mapM_none hmem (by simp [decodeOne, hxp, hl])]; rfl
    | some a =>
      refine loadedBatch_eq c hc hv a (hok x hx a (by rw [hxp]; exact hl)).1 _ (List.ne_nil_of_mem hmem) ?_ ?_
      · intro r hr; rw [(hpath r hr).2]; exact hl
      · intro r hr; exact (hok r (hpath r hr).1 a (by rw [(hpath r hr).2]; exact hl)).2
  unfold flatBatch
  split
  · rename_i p hp
    have hall : ∀ r ∈ refs, r.path = p := by
      intro r hr
      have : r.path ∈ distinct (refs.map Ref.path) := (mem_distinct _ _).mpr (List.mem_map.mpr ⟨r, hr, rfl⟩)
      rw [hp] at this; simpa using this
    obtain ⟨x, hx⟩ := List.exists_mem_of_ne_nil _ hne
    have hf : (refs.filter fun r => decide (r.path = p)) = refs := List.filter_eq_self.mpr fun r hr => by simpa using hall r hr
    have := hgroup p ⟨x, hx, hall x hx⟩
    rw [hf] at this
    rw [this]
    cases hm : refs.mapM (decodeOne c) with
    | none => rfl
    | some rows =>
      obtain ⟨x', _, hx'⟩ := mapM_mem hm hx
      simp only [Option.bind_some]
      refine (stack_uniform (s := x'.shape) ?_ ?_).symm
      · intro h0; subst h0
        have := mapM_length hm
        exact hne (List.length_eq_zero_iff.mp (by simpa using this.symm))
      · intro r hr
        obtain ⟨y, hy, hfy⟩ := mapM_mem_rev hm hr
        exact hshape y hy x hx (by rw [hall y hy, hall x hx]) _ _ hfy hx'
  · unfold groupedBatch
    have hrep : (List.replicate refs.length none : List (Option (Row α))) =
        refs.map fun x => if (fun _ => false) x = true then decodeOne c x else none := by
      simp [List.map_const']
    rw [hrep]
    exact assemble_eq refs Ref.path (decodeOne c) _ hgroup hshape hne _ (fun _ => false) none
      (fun x hx => Or.inr ((mem_distinct _ _).mpr (List.mem_map.mpr ⟨x, hx, rfl⟩)))
      (fun k hk => by simpa using (mem_distinct _ _).mp hk) (fun _ _ => rfl)

/-- **C74 (batches).** Whatever the order of the references, the files they mix, the rows being contiguous or not, and with every option: the batch is the
stack of the samples decoded one by one, and it fails exactly when one of them fails or their shapes differ. -/
theorem C74_materialize [Zero α] (c : Cfg α) (hv : ValidSeed c) (refs : List Ref) (hok : RefsOk c refs) :
    materializeRefs c refs = (refs.mapM (decodeOne c)).bind stack := by
  unfold materializeRefs
  cases hc : c.fixedSize with
  | some s => rfl
  | none =>
    cases refs with
    | nil => rfl
    | cons r rs => exact flatBatch_eq c hc hv (r :: rs) (by simp) hok

/-- **C74 (independence of the batch).** A row of a batch is the sample of its own reference, whatever else is in the batch. -/
theorem C74_rowwise [Zero α] (c : Cfg α) (hv : ValidSeed c) (refs : List Ref) (hok : RefsOk c refs) (out : List (Row α))
    (h : materializeRefs c refs = some out) (i : Nat) : out[i]? = (refs[i]?).bind (decodeOne c) := by
  rw [C74_materialize c hv refs hok] at h
  cases hm : refs.mapM (decodeOne c) with
  | none => simp [hm] at h
  | some rows =>
    rw [hm] at h
    obtain ⟨rfl, -⟩ := stack_some h
    clear h
    induction refs generalizing out i with
    | nil => simp at hm; subst hm; simp
    | cons r rs ih =>
      obtain ⟨y, ys, h1, h2, rfl⟩ := mapM_cons_iff hm
      cases i with
      | zero => simp [h1]
      | succ i => simpa using ih (fun r hr => hok r (by simp [hr])) ys i h2

/-! ### Chunks of batches -/

theorem mapM_flatten {β γ : Type} (f : β → Option γ) (bs : List (List β)) : bs.flatten.mapM f = (bs.mapM fun b : List β => b.mapM f).map List.flatten := by
  induction bs with
  | nil => rfl
  | cons b bs ih =>
    rw [List.flatten_cons, mapM_append', mapM_cons', ih]
    cases b.mapM f with
    | none => rfl
    | some x => cases bs.mapM fun b : List β => b.mapM f <;> rfl

theorem split_flatten {β γ : Type} (f : β → Option γ) (bs : List (List β)) (outs : List (List γ)) (h : (bs.mapM fun b => b.mapM f) = some outs) :
    splitBatches outs.flatten (bs.map List.length) = outs := by
  induction bs generalizing outs with
  | nil => simp at h; subst h; rfl
  | cons b bs ih =>
    obtain ⟨y, ys, h1, h2, rfl⟩ := mapM_cons_iff h
    have hl := mapM_length h1
    simp [splitBatches, ← hl, ih ys h2]

/-- **C74 (chunks).** When the chunk decoder succeeds, every batch of the chunk is what decoding it alone gives. -/
theorem C74_batches [Zero α] (c : Cfg α) (hc : c.fixedSize = none) (hv : ValidSeed c) (batches : List (List Ref))
    (hok : RefsOk c batches.flatten) (outs : List (List (Row α))) (h : decodeBatches c batches = some outs) :
    batches.mapM (decodeBatch c) = some outs := by
  unfold decodeBatches at h
  split_ifs at h with hemp
  have hne : ∀ b ∈ batches, b ≠ [] := by
    intro b hb h0
    exact hemp (Or.inr (List.any_eq_true.mpr ⟨b, hb, by simp [h0]⟩))
  split at h
  · rename_i hd
    have hfl : batches.flatten ≠ [] := by
      intro h0
      cases hb : batches with
      | nil => exact hemp (Or.inl hb)
      | cons b bs =>
        have := hne b (by simp [hb])
        simp [hb] at h0
        exact this h0.1
    rw [flatBatch_eq c hc hv _ hfl hok, mapM_flatten] at h
    cases hm : batches.mapM fun b => b.mapM (decodeOne c) with
    | none => simp [hm] at h
    | some rows =>
      simp only [hm, Option.map_some, Option.bind_some] at h
      cases hs : stack rows.flatten with
      | none => simp [hs] at h
      | some x =>
        simp only [hs, Option.map_some, Option.some.injEq] at h
        obtain ⟨rfl, hx, hsh⟩ := stack_some hs
        rw [split_flatten _ _ _ hm] at h
        subst h
        have : batches.mapM (decodeBatch c) = batches.mapM fun b => b.mapM (decodeOne c) := by
          apply mapM_congr'
          intro b hb
          have hbn := hne b hb
          have e : decodeBatch c b = flatBatch c b := by
            cases b with
            | nil => exact absurd rfl hbn
            | cons => rfl
          rw [e, flatBatch_eq c hc hv b hbn fun r hr => hok r (List.mem_flatten.mpr ⟨b, hb, hr⟩)]
          obtain ⟨out, hout, hbo⟩ := mapM_mem hm hb
          rw [hbo]
          simp only [Option.bind_some]
          have hon : out ≠ [] := by
            intro h0; subst h0
            exact hbn (List.length_eq_zero_iff.mp (by simpa using (mapM_length hbo).symm))
          obtain ⟨y, hy⟩ := List.exists_mem_of_ne_nil _ hon
          exact stack_uniform (s := y.shape) hon fun z hz =>
            hsh z (List.mem_flatten.mpr ⟨out, hout, hz⟩) y (List.mem_flatten.mpr ⟨out, hout, hy⟩)
        rw [this, hm]
  · exact h

/-- **C74 (chunks, converse).** If every batch decodes alone and all samples have one shape, the chunk decoder gives the same batches. -/
theorem C74_batches_complete [Zero α] (c : Cfg α) (hc : c.fixedSize = none) (hv : ValidSeed c) (batches : List (List Ref))
    (hne : batches ≠ []) (hok : RefsOk c batches.flatten) (outs : List (List (Row α))) (h : batches.mapM (decodeBatch c) = some outs)
    (hsh : ∀ x ∈ outs.flatten, ∀ y ∈ outs.flatten, x.shape = y.shape) :
    decodeBatches c batches = some outs := by
  have hnil : ∀ b ∈ batches, b ≠ [] := by
    intro b hb h0
    subst h0
    obtain ⟨o, _, ho⟩ := mapM_mem h hb
    simp [decodeBatch] at ho
  unfold decodeBatches
  rw [if_neg (by
    rintro (h0 | h0)
    · exact hne h0
    · obtain ⟨b, hb, he⟩ := List.any_eq_true.mp h0
      exact hnil b hb (by simpa using he))]
  have hfl : batches.flatten ≠ [] := by
    obtain ⟨b, hb⟩ := List.exists_mem_of_ne_nil _ hne
    obtain ⟨r, hr⟩ := List.exists_mem_of_ne_nil _ (hnil b hb)
    exact List.ne_nil_of_mem (List.mem_flatten.mpr ⟨b, hb, hr⟩)
  have hm : (batches.mapM fun b => b.mapM (decodeOne c)) = some outs := by
    have key : ∀ b ∈ batches, ∃ o, decodeBatch c b = some o ∧ b.mapM (decodeOne c) = some o := by
      intro b hb
      obtain ⟨o, _, ho⟩ := mapM_mem h hb
      refine ⟨o, ho, ?_⟩
      have hbn := hnil b hb
      have e : decodeBatch c b = flatBatch c b := by
        cases b with
        | nil => exact absurd rfl hbn
        | cons => rfl
      rw [e, flatBatch_eq c hc hv b hbn fun r hr => hok r (List.mem_flatten.mpr ⟨b, hb, hr⟩)] at ho
      cases hb' : b.mapM (decodeOne c) with
      | none => simp [hb'] at ho
      | some x => rw [hb'] at ho; rw [(stack_some ho).1]
    rw [← h]
    apply mapM_congr'
    intro b hb
    obtain ⟨o, h1, h2⟩ := key b hb
    rw [h1, h2]
  split
  · rw [flatBatch_eq c hc hv _ hfl hok, mapM_flatten, hm]
    simp only [Option.map_some, Option.bind_some]
    have hon : outs.flatten ≠ [] := by
      intro h0
      have e := mapM_flatten (decodeOne c) batches
      rw [hm, Option.map_some, h0] at e
      exact hfl (List.length_eq_zero_iff.mp (by simpa using (mapM_length e).symm))
    obtain ⟨y, hy⟩ := List.exists_mem_of_ne_nil _ hon
    rw [stack_uniform (s := y.shape) hon fun x hx => hsh x hx y hy]
    simp only [Option.map_some]
    rw [split_flatten _ _ _ hm]
  · exact h

end Verif.Decode
