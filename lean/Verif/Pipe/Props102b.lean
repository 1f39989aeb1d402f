import Verif.Pipe.Props102

/-!
# C102 — the chain as a whole
-/
namespace Verif.Pipe
open Verif.Canon

variable {A K H D : Type}

/-! ## Specification -/

/-- The pipeline still declares what it declared when the chain was built (as far as SHA-256 can tell). -/
def SameSignature (x : Ext A D) (p : Pipe A K H) (h₀ h : H) : Prop :=
  ∃ b₀ b, encode x.lib (p.signature h₀) = .ok b₀ ∧ encode x.lib (p.signature h) = .ok b ∧ x.sha b = x.sha b₀

/-- `SameSignature` for all pipelines of a chain. -/
inductive SameSignatures (x : Ext A D) : List (Pipe A K H) → List H → List H → Prop
  | nil : SameSignatures x [] [] []
  | cons {p ps h₀ hs₀ h hs} : SameSignature x p h₀ h → SameSignatures x ps hs₀ hs → SameSignatures x (p :: ps) (h₀ :: hs₀) (h :: hs)

/-- The states kept after the calls. -/
def keptStates : List (Pipe A K H) → List (Out A H) → List Val
  | p :: ps, o :: os => keptState p o :: keptStates ps os
  | _, _ => []

/-! ## Blobs -/

theorem decodeEntry_ok (lib : PyLib) (id : Str) (v : Int) (e s : Val) (h : decodeEntry lib id v e = .ok s) :
    Decoded lib s ∧ ∃ t hx, e = .seq t [.str id, .int v, .str hx] := by
  unfold decodeEntry at h
  split at h
  next t i w hx =>
    by_cases hc : i ≠ id ∨ w ≠ v
    · rw [if_pos hc] at h; simp at h
    · rw [if_neg hc] at h
      have h1 : i = id := by by_contra h'; exact hc (Or.inl h')
      have h2 : w = v := by by_contra h'; exact hc (Or.inr h')
      subst h1; subst h2
      cases hf : fromHex hx with
      | none => rw [hf] at h; simp at h
      | some bs =>
        rw [hf] at h
        exact ⟨⟨_, h⟩, t, hx, rfl⟩
  next => simp at h

theorem decodeEntries_ok (lib : PyLib) : ∀ (ps : List (Pipe A K H)) (vs ss : List Val), decodeEntries lib ps vs = .ok ss →
    ss.length = ps.length ∧ ∀ s ∈ ss, Decoded lib s := by
  intro ps
  induction ps with
  | nil =>
    intro vs ss h
    cases vs with
    | nil => rw [decodeEntries] at h; injection h with h; subst h; simp
    | cons v vs => simp [decodeEntries] at h
  | cons p ps ih =>
    intro vs ss h
    cases vs with
    | nil => simp [decodeEntries] at h
    | cons v vs =>
      rw [decodeEntries] at h
      cases he : decodeEntry lib p.id p.version v with
      | error m => rw [he] at h; simp at h
      | ok s =>
        rw [he] at h
        simp only [] at h
        cases hr : decodeEntries lib ps vs with
        | error m => rw [hr] at h; simp at h
        | ok rest =>
          rw [hr] at h
          injection h with h
          subst h
          obtain ⟨h1, h2⟩ := ih vs rest hr
          refine ⟨by simp [h1], ?_⟩
          intro t ht
          rcases List.mem_cons.1 ht with rfl | ht
          · exact (decodeEntry_ok lib _ _ _ _ he).1
          · exact h2 t ht

theorem decodeBlob_ok (lib : PyLib) (ps : List (Pipe A K H)) (blob : ByteArray) (ss : List Val) (h : decodeBlob lib ps blob = .ok ss) :
    ss.length = ps.length ∧ ∀ s ∈ ss, Decoded lib s := by
  unfold decodeBlob at h
  split at h
  next => simp at h
  next vs _ => exact decodeEntries_ok lib ps vs ss h
  next => simp at h

/-- The entries that store the states `ss`. -/
inductive Stores (x : Ext A D) : List (Pipe A K H) → List Val → List Val → Prop
  | nil : Stores x [] [] []
  | cons {p ps s ss b es} : encode x.lib s = .ok b → Stores x ps ss es → Stores x (p :: ps) (s :: ss) (entry p.id p.version b :: es)

theorem stores_decode (x : Ext A D) (ps : List (Pipe A K H)) (ss es : List Val) (h : Stores x ps ss es) (hv : ∀ s ∈ ss, PyVal s) :
    decodeEntries x.lib ps (es.map norm) = .ok (ss.map norm) := by
  induction h with
  | nil => rfl
  | @cons p ps s ss b es hb hr ih =>
    have hd := C07_roundtrip x.lib s (hv s (by simp)) b hb
    have he : decodeEntry x.lib p.id p.version (norm (entry p.id p.version b)) = .ok (norm s) := by
      simp only [entry, norm, normList, decodeEntry, ne_eq, not_true_eq_false, or_self, if_false, fromHex_toHex]
      exact hd
    rw [List.map_cons, decodeEntries, he]
    simp only []
    rw [ih (fun t ht => hv t (List.mem_cons_of_mem _ ht))]
    rfl

theorem stores_pyval (x : Ext A D) (ps : List (Pipe A K H)) (ss es : List Val) (h : Stores x ps ss es) : ∀ e ∈ es, PyVal e := by
  induction h with
  | nil => simp
  | @cons p ps s ss b es hb hr ih =>
    intro e he
    rcases List.mem_cons.1 he with rfl | he
    · refine PyVal.seq _ _ ?_
      intro y hy
      simp only [List.mem_cons, List.not_mem_nil, or_false] at hy
      rcases hy with rfl | rfl | rfl
      · exact PyVal.str _
      · exact PyVal.int _
      · exact PyVal.str _
    · exact ih e he

theorem stores_blob (x : Ext A D) (ps : List (Pipe A K H)) (ss es : List Val) (h : Stores x ps ss es) (hv : ∀ s ∈ ss, PyVal s)
    (t : Bool) (b : ByteArray) (hb : encode x.lib (.seq t es) = .ok b) : decodeBlob x.lib ps b = .ok (ss.map norm) := by
  have h1 := C07_roundtrip x.lib _ (PyVal.seq t es (stores_pyval x ps ss es h)) b hb
  unfold decodeBlob
  rw [h1]
  simp only [norm, normList_eq]
  exact stores_decode x ps ss es h hv

theorem stores_length (x : Ext A D) (ps : List (Pipe A K H)) (ss es : List Val) (h : Stores x ps ss es) : ss.length = ps.length := by
  induction h with
  | nil => rfl
  | cons _ _ ih => simp [ih]

theorem stores_encodable (x : Ext A D) (ps : List (Pipe A K H)) (ss es : List Val) (h : Stores x ps ss es) : ∀ s ∈ ss, Encodable s := by
  induction h with
  | nil => simp
  | @cons p ps s ss b es hb hr ih =>
    intro t ht
    rcases List.mem_cons.1 ht with rfl | ht
    · exact (C07_accepts x.lib _).1 ⟨b, hb⟩
    · exact ih t ht

theorem stores_exists (x : Ext A D) : ∀ (ps : List (Pipe A K H)) (ss : List Val), ss.length = ps.length → (∀ s ∈ ss, Encodable s) →
    ∃ es, Stores x ps ss es := by
  intro ps
  induction ps with
  | nil => intro ss hl _; cases ss with
    | nil => exact ⟨[], .nil⟩
    | cons _ _ => simp at hl
  | cons p ps ih =>
    intro ss hl he
    cases ss with
    | nil => simp at hl
    | cons s ss =>
      obtain ⟨es, hes⟩ := ih ss (by simpa using hl) (fun t ht => he t (List.mem_cons_of_mem _ ht))
      obtain ⟨b, hb⟩ := (C07_accepts x.lib s).2 (he s (by simp))
      exact ⟨_, .cons hb hes⟩

/-- Schema versions that fit the encoder. -/
def VersionsOk (ps : List (Pipe A K H)) : Prop := ∀ p ∈ ps, -9223372036854775808 ≤ p.version ∧ p.version ≤ 9223372036854775807

theorem stores_seq (x : Ext A D) (ps : List (Pipe A K H)) (ss es : List Val) (h : Stores x ps ss es) (t : Bool) :
    (∃ b, encode x.lib (.seq t es) = .ok b) ↔ VersionsOk ps := by
  rw [C07_accepts]
  have key : (∀ e ∈ es, Encodable e) ↔ VersionsOk ps := by
    induction h with
    | nil => simp [VersionsOk]
    | @cons p ps s ss b es hb hr ih =>
      have h1 : Encodable (entry p.id p.version b) ↔ -9223372036854775808 ≤ p.version ∧ p.version ≤ 9223372036854775807 := by
        constructor
        · intro he
          cases he with
          | seq t xs hx =>
            cases hx (.int p.version) (by simp) with
            | int n h1 h2 => exact ⟨h1, h2⟩
        · intro hv
          refine Encodable.seq _ _ ?_
          intro y hy
          simp only [List.mem_cons, List.not_mem_nil, or_false] at hy
          rcases hy with rfl | rfl | rfl
          · exact Encodable.str _
          · exact Encodable.int _ hv.1 hv.2
          · exact Encodable.str _
      unfold VersionsOk at ih ⊢
      rw [List.forall_mem_cons, List.forall_mem_cons, h1, ih]
  rw [← key]
  constructor
  · intro h
    cases h with
    | seq _ _ hx => exact hx
  · intro h; exact Encodable.seq _ _ h

/-! ## The loop -/

inductive Signed (x : Ext A D) : List (Pipe A K H) → List D → List H → Prop
  | nil : Signed x [] [] []
  | cons {p ps q qs h hs} : (∃ sig, encode x.lib (p.signature h) = .ok sig ∧ x.sha sig = q) → Signed x ps qs hs →
      Signed x (p :: ps) (q :: qs) (h :: hs)

theorem steps_iff [DecidableEq D] (x : Ext A D) (n : Nat) (keys : K) : ∀ (ps : List (Pipe A K H)) (qs : List D) (hs : List H) (ss : List Val)
    (d : Data A), qs.length = ps.length → hs.length = ps.length → ss.length = ps.length → (∀ s ∈ ss, Decoded x.lib s) →
    ∀ d' es hs', steps x n keys ps qs hs ss d = .ok (d', es, hs') ↔
      ∃ outs, Chain x n keys ps hs ss d outs d' ∧ Signed x ps qs hs ∧ Stores x ps (keptStates ps outs) es ∧ hs' = outs.map Out.hidden := by
  intro ps
  induction ps with
  | nil =>
    intro qs hs ss d h1 h2 h3 _ d' es hs'
    have e1 := List.length_eq_zero_iff.1 h1
    have e2 := List.length_eq_zero_iff.1 h2
    have e3 := List.length_eq_zero_iff.1 h3
    subst e1; subst e2; subst e3
    simp only [steps, Except.ok.injEq, Prod.mk.injEq]
    constructor
    · rintro ⟨rfl, rfl, rfl⟩
      exact ⟨[], .nil _, .nil, .nil, rfl⟩
    · rintro ⟨outs, hc, -, hst, rfl⟩
      cases hc
      cases hst
      simp
  | cons p ps ih =>
    intro qs hs ss d h1 h2 h3 hd d' es hs'
    cases qs with
    | nil => simp at h1
    | cons q qs =>
    cases hs with
    | nil => simp at h2
    | cons h hs =>
    cases ss with
    | nil => simp at h3
    | cons s ss =>
    rw [steps]
    have hsd := hd s (by simp)
    have hst := step_iff x p q h d s n keys hsd
    cases e1 : step x p q h d s n keys with
    | error m =>
      simp only [reduceCtorEq, false_iff]
      rintro ⟨outs, hc, hsig, hsto, -⟩
      cases hc with
      | @cons _ _ _ _ _ _ _ out outs _ hrun hclean hrest =>
        cases hsig with
        | cons hq _ =>
          cases hsto with
          | @cons _ _ _ _ b es hb _ =>
            have := (hst out.data (entry p.id p.version b) out.hidden).2 ⟨out, b, hrun, hclean, hq, hb, rfl, rfl, rfl⟩
            rw [e1] at this
            simp at this
    | ok r =>
      obtain ⟨d1, en, h'⟩ := r
      simp only []
      obtain ⟨out, b, hrun, hclean, hq, hb, rfl, rfl, rfl⟩ := (hst d1 en h').1 e1
      have ihr := ih qs hs ss out.data (by simpa using h1) (by simpa using h2) (by simpa using h3) (fun t ht => hd t (List.mem_cons_of_mem _ ht))
      cases e2 : steps x n keys ps qs hs ss out.data with
      | error m =>
        simp only [reduceCtorEq, false_iff]
        rintro ⟨outs, hc, hsig, hsto, -⟩
        cases hc with
        | @cons _ _ _ _ _ _ _ out' outs _ hrun' hclean' hrest =>
          rw [hrun] at hrun'
          injection hrun' with hrun'
          subst hrun'
          cases hsig with
          | cons _ hsig =>
            cases hsto with
            | cons _ hsto =>
              have := (ihr _ _ _).2 ⟨outs, hrest, hsig, hsto, rfl⟩
              rw [e2] at this
              simp at this
      | ok r2 =>
        obtain ⟨d2, es2, hs2⟩ := r2
        simp only [Except.ok.injEq, Prod.mk.injEq]
        obtain ⟨outs, hc, hsig, hsto, rfl⟩ := (ihr _ _ _).1 e2
        constructor
        · rintro ⟨rfl, rfl, rfl⟩
          exact ⟨out :: outs, .cons hrun hclean hc, .cons hq hsig, .cons hb hsto, rfl⟩
        · rintro ⟨outs', hc', hsig', hsto', rfl⟩
          cases hc' with
          | @cons _ _ _ _ _ _ _ out' outs' _ hrun' hclean' hrest =>
            rw [hrun] at hrun'
            injection hrun' with hrun'
            subst hrun'
            cases hsto' with
            | @cons _ _ _ _ b' es' hb' hsto' =>
              rw [hb] at hb'
              injection hb' with hb'
              subst hb'
              cases hsig' with
              | cons _ hsig' =>
                have := (ihr _ _ _).2 ⟨outs', hrest, hsig', hsto', rfl⟩
                rw [e2] at this
                simp only [Except.ok.injEq, Prod.mk.injEq] at this
                obtain ⟨a1, a2, a3⟩ := this
                refine ⟨a1, by rw [a2], by simp [a3]⟩

/-! ## Construction -/

/-- The conditions under which a chain can be built from pipelines that are now `hs`. -/
structure Buildable (ps : List (Pipe A K H)) (hs : List H) : Prop where
  ids : (ps.map Pipe.id).Nodup ∧ ∀ p ∈ ps, p.id ≠ []
  versions : VersionsOk ps
  outputs : ∀ p ∈ ps, (p.outputs.map Spec.name).Nodup ∧ ∀ o ∈ p.outputs, ∀ i ∈ p.inputs, o.name ≠ i.name
  disjoint : ps.Pairwise fun p q => ∀ o ∈ p.outputs, ∀ o' ∈ q.outputs, o.name ≠ o'.name
  signatures : ∀ ph ∈ ps.zip hs, Encodable (ph.1.signature ph.2)
  initial : ∀ p ∈ ps, p.stateful = true → Encodable p.initial

theorem makeLoop_ok (x : Ext A D) : ∀ (ps : List (Pipe A K H)) (hs : List H) (produced : List String) (es : List Val) (ds : List D),
    hs.length = ps.length → makeLoop x ps hs produced = .ok (es, ds) →
    (Signed x ps ds hs ∧ Stores x ps (ps.map fun p => handed p p.initial) es) ∧
    (∀ p ∈ ps, p.id ≠ []) ∧ (∀ p ∈ ps, (p.outputs.map Spec.name).Nodup ∧ ∀ o ∈ p.outputs, ∀ i ∈ p.inputs, o.name ≠ i.name) ∧
    (ps.Pairwise fun p q => ∀ o ∈ p.outputs, ∀ o' ∈ q.outputs, o.name ≠ o'.name) ∧
    (∀ p ∈ ps, ∀ o ∈ p.outputs, o.name ∉ produced) := by
  intro ps
  induction ps with
  | nil =>
    intro hs produced es ds hl h
    have := List.length_eq_zero_iff.1 hl
    subst this
    simp only [makeLoop, Except.ok.injEq, Prod.mk.injEq] at h
    obtain ⟨rfl, rfl⟩ := h
    exact ⟨⟨.nil, .nil⟩, by simp, by simp, by simp, by simp⟩
  | cons p ps ih =>
    intro hs produced es ds hl h
    cases hs with
    | nil => simp at hl
    | cons h0 hs =>
    rw [makeLoop] at h
    by_cases c0 : p.id = []
    · rw [if_pos c0] at h; simp at h
    rw [if_neg c0] at h
    cases e1 : encode x.lib (p.signature h0) with
    | error m => rw [e1] at h; simp at h
    | ok sig =>
      rw [e1] at h
      simp only [] at h
      by_cases c1 : ¬ (names p.outputs).Nodup
      · rw [if_pos c1] at h; simp at h
      rw [if_neg c1] at h
      by_cases c2 : (names p.outputs).any (fun k => produced.contains k) = true
      · rw [if_pos c2] at h; simp at h
      rw [if_neg c2] at h
      by_cases c3 : (names p.outputs).any (fun k => (names p.inputs).contains k) = true
      · rw [if_pos c3] at h; simp at h
      rw [if_neg c3] at h
      cases e2 : encode x.lib (if p.stateful = true then p.initial else .null) with
      | error m => rw [e2] at h; simp at h
      | ok b =>
        rw [e2] at h
        simp only [] at h
        cases e3 : makeLoop x ps hs (produced ++ names p.outputs) with
        | error m => rw [e3] at h; simp at h
        | ok r =>
          obtain ⟨es', ds'⟩ := r
          rw [e3] at h
          simp only [Except.ok.injEq, Prod.mk.injEq] at h
          obtain ⟨rfl, rfl⟩ := h
          obtain ⟨⟨i1, i2⟩, i3, i4, i5, i6⟩ := ih hs _ es' ds' (by simpa using hl) e3
          have hx : ∀ (o : Spec), o ∈ p.outputs → o.name ∈ names p.outputs := fun o ho => List.mem_map_of_mem ho
          refine ⟨⟨.cons ⟨sig, e1, rfl⟩ i1, .cons (by unfold handed; exact e2) i2⟩, ?_, ?_, ?_, ?_⟩
          · rw [List.forall_mem_cons]; exact ⟨c0, i3⟩
          · rw [List.forall_mem_cons]
            refine ⟨⟨by simpa [names] using c1, fun o ho i hi he => ?_⟩, i4⟩
            apply c3
            rw [List.any_eq_true]
            refine ⟨o.name, hx o ho, ?_⟩
            rw [List.contains_iff_mem, he]
            exact List.mem_map_of_mem hi
          · rw [List.pairwise_cons]
            refine ⟨fun q hq o ho o' ho' he => ?_, i5⟩
            exact i6 q hq o' ho' (List.mem_append_right _ (he ▸ hx o ho))
          · rw [List.forall_mem_cons]
            refine ⟨fun o ho hc => ?_, fun q hq o ho hc => i6 q hq o ho (List.mem_append_left _ hc)⟩
            apply c2
            rw [List.any_eq_true]
            exact ⟨o.name, hx o ho, by rw [List.contains_iff_mem]; exact hc⟩

theorem makeLoop_accepts (x : Ext A D) : ∀ (ps : List (Pipe A K H)) (hs : List H) (produced : List String), hs.length = ps.length →
    (∀ p ∈ ps, p.id ≠ []) → (∀ p ∈ ps, (p.outputs.map Spec.name).Nodup ∧ ∀ o ∈ p.outputs, ∀ i ∈ p.inputs, o.name ≠ i.name) →
    (ps.Pairwise fun p q => ∀ o ∈ p.outputs, ∀ o' ∈ q.outputs, o.name ≠ o'.name) →
    (∀ ph ∈ ps.zip hs, Encodable (ph.1.signature ph.2)) → (∀ p ∈ ps, p.stateful = true → Encodable p.initial) →
    (∀ p ∈ ps, ∀ o ∈ p.outputs, o.name ∉ produced) → ∃ r, makeLoop x ps hs produced = .ok r := by
  intro ps
  induction ps with
  | nil => intro hs produced hl _ _ _ _ _ _; exact ⟨_, rfl⟩
  | cons p ps ih =>
    intro hs produced hl h1 h2 h3 h4 h5 h6
    cases hs with
    | nil => simp at hl
    | cons h0 hs =>
    rw [List.forall_mem_cons] at h1 h2 h5 h6
    rw [List.pairwise_cons] at h3
    rw [List.zip_cons_cons, List.forall_mem_cons] at h4
    obtain ⟨sig, hsig⟩ := (C07_accepts x.lib _).2 h4.1
    have hinit : Encodable (if p.stateful = true then p.initial else .null) := by
      cases hst : p.stateful with
      | false => exact Encodable.null
      | true => exact h5.1 hst
    obtain ⟨b, hb⟩ := (C07_accepts x.lib _).2 hinit
    have hn : ∀ k ∈ names p.outputs, ∃ o ∈ p.outputs, o.name = k := fun k hk => List.mem_map.1 hk
    obtain ⟨r, hr⟩ := ih hs (produced ++ names p.outputs) (by simpa using hl) h1.2 h2.2 h3.2 h4.2 h5.2 (by
      intro q hq o ho hc
      rcases List.mem_append.1 hc with hc | hc
      · exact h6.2 q hq o ho hc
      · obtain ⟨o', ho', he⟩ := hn _ hc
        exact h3.1 q hq o' ho' o ho he)
    rw [makeLoop, if_neg h1.1, hsig]
    simp only []
    have c1 : ¬ ¬ (names p.outputs).Nodup := by simpa [names] using h2.1.1
    have c2 : ¬ (names p.outputs).any (fun k => produced.contains k) = true := by
      rw [List.any_eq_true]
      rintro ⟨k, hk, hc⟩
      obtain ⟨o, ho, rfl⟩ := hn k hk
      exact h6.1 o ho (List.contains_iff_mem.1 hc)
    have c3 : ¬ (names p.outputs).any (fun k => (names p.inputs).contains k) = true := by
      rw [List.any_eq_true]
      rintro ⟨k, hk, hc⟩
      obtain ⟨o, ho, rfl⟩ := hn k hk
      obtain ⟨i, hi, he⟩ := List.mem_map.1 (List.contains_iff_mem.1 hc)
      exact h2.1.2 o ho i hi he.symm
    rw [if_neg c1, if_neg c2, if_neg c3, hb]
    simp only []
    rw [hr]
    exact ⟨_, rfl⟩

theorem make_ok (x : Ext A D) (ps : List (Pipe A K H)) (hs : List H) (hl : hs.length = ps.length) (c : Composer A K H D)
    (h : make x ps hs = .ok c) : c.pipes = ps ∧ Signed x ps c.prints hs ∧
      (∃ es, Stores x ps (ps.map fun p => handed p p.initial) es ∧ encode x.lib (.seq false es) = .ok c.initialBlob) ∧
      (ps.map Pipe.id).Nodup ∧ makeLoop x ps hs [] ≠ .error "" := by
  unfold make at h
  by_cases c0 : ¬ (ps.map Pipe.id).Nodup
  · rw [if_pos c0] at h; simp at h
  rw [if_neg c0] at h
  cases e1 : makeLoop x ps hs [] with
  | error m => rw [e1] at h; simp at h
  | ok r =>
    obtain ⟨es, ds⟩ := r
    rw [e1] at h
    simp only [] at h
    cases e2 : encode x.lib (.seq false es) with
    | error m => rw [e2] at h; simp at h
    | ok b =>
      rw [e2] at h
      injection h with h
      subst h
      obtain ⟨⟨i1, i2⟩, -⟩ := makeLoop_ok x ps hs [] es ds hl e1
      exact ⟨rfl, i1, ⟨es, i2, e2⟩, by simpa using c0, by simp⟩

theorem signed_encodable (x : Ext A D) (ps : List (Pipe A K H)) (qs : List D) (hs : List H) (h : Signed x ps qs hs) :
    ∀ ph ∈ ps.zip hs, Encodable (ph.1.signature ph.2) := by
  induction h with
  | nil => simp
  | cons hq _ ih =>
    rw [List.zip_cons_cons, List.forall_mem_cons]
    obtain ⟨sig, h1, -⟩ := hq
    exact ⟨(C07_accepts x.lib _).1 ⟨sig, h1⟩, ih⟩

/-- **C102 (building).** A chain can be built exactly from pipelines with distinct non-empty identifiers, representable versions,
encodable signatures and initial states, and output fields that collide neither with each other nor with the pipeline's own inputs. -/
theorem C102_build (x : Ext A D) (ps : List (Pipe A K H)) (hs : List H) (hl : hs.length = ps.length) :
    (∃ c, make x ps hs = .ok c) ↔ Buildable ps hs := by
  constructor
  · rintro ⟨c, h⟩
    unfold make at h
    by_cases c0 : ¬ (ps.map Pipe.id).Nodup
    · rw [if_pos c0] at h; simp at h
    rw [if_neg c0] at h
    cases e1 : makeLoop x ps hs [] with
    | error m => rw [e1] at h; simp at h
    | ok r =>
      obtain ⟨es, ds⟩ := r
      rw [e1] at h
      simp only [] at h
      cases e2 : encode x.lib (.seq false es) with
      | error m => rw [e2] at h; simp at h
      | ok b =>
        obtain ⟨⟨i1, i2⟩, i3, i4, i5, -⟩ := makeLoop_ok x ps hs [] es ds hl e1
        refine ⟨⟨by simpa using c0, i3⟩, (stores_seq x ps _ es i2 false).1 ⟨b, e2⟩, i4, i5, signed_encodable x ps ds hs i1, ?_⟩
        intro p hp hst
        have := stores_encodable x ps _ es i2 (handed p p.initial) (List.mem_map_of_mem (f := fun p : Pipe A K H => handed p p.initial) hp)
        unfold handed at this
        rw [if_pos hst] at this
        exact this
  · intro hb
    obtain ⟨r, hr⟩ := makeLoop_accepts x ps hs [] hl hb.ids.2 hb.outputs hb.disjoint hb.signatures hb.initial (by simp)
    obtain ⟨es, ds⟩ := r
    obtain ⟨⟨i1, i2⟩, -⟩ := makeLoop_ok x ps hs [] es ds hl hr
    obtain ⟨b, hbb⟩ := (stores_seq x ps _ es i2 false).2 hb.versions
    unfold make
    rw [if_neg (by simpa using hb.ids.1), hr]
    simp only []
    rw [hbb]
    exact ⟨_, rfl⟩

/-! ## The chain -/

theorem chain_length (x : Ext A D) (n : Nat) (keys : K) (ps : List (Pipe A K H)) (hs : List H) (ss : List Val) (d d' : Data A)
    (outs : List (Out A H)) (h : Chain x n keys ps hs ss d outs d') : outs.length = ps.length ∧ (keptStates ps outs).length = ps.length := by
  induction h with
  | nil => exact ⟨rfl, rfl⟩
  | cons _ _ _ ih => simp [keptStates, ih.1, ih.2]

theorem signed_same (x : Ext A D) (ps : List (Pipe A K H)) (qs : List D) (hs₀ : List H) (h : Signed x ps qs hs₀) :
    ∀ hs, Signed x ps qs hs ↔ SameSignatures x ps hs₀ hs := by
  induction h with
  | nil =>
    intro hs
    constructor
    · intro h; cases h; exact .nil
    · intro h; cases h; exact .nil
  | @cons p ps q qs h0 hs0 hq _ ih =>
    intro hs
    obtain ⟨b0, h1, h2⟩ := hq
    constructor
    · intro h
      cases h with
      | cons hq' hr =>
        obtain ⟨b, h3, h4⟩ := hq'
        exact .cons ⟨b0, b, h1, h3, h4.trans h2.symm⟩ ((ih _).1 hr)
    · intro h
      cases h with
      | cons hq' hr =>
        obtain ⟨b0', b, h3, h4, h5⟩ := hq'
        rw [h1] at h3
        injection h3 with h3
        subst h3
        exact .cons ⟨b, h4, h5.trans h2⟩ ((ih _).2 hr)

theorem signed_length (x : Ext A D) (ps : List (Pipe A K H)) (qs : List D) (hs : List H) (h : Signed x ps qs hs) : qs.length = ps.length := by
  induction h with
  | nil => rfl
  | cons _ _ ih => simp [ih]

theorem prepare_iff [DecidableEq D] (x : Ext A D) (ps : List (Pipe A K H)) (hs₀ hs : List H) (hl₀ : hs₀.length = ps.length)
    (hl : hs.length = ps.length) (c : Composer A K H D) (hc : make x ps hs₀ = .ok c) (batch : Data A) (n : Nat) (keys : K)
    (blob : Option ByteArray) (d' : Data A) (blob' : ByteArray) (hs' : List H) :
    prepare x c hs batch n keys blob = .ok (d', blob', hs') ↔
      ∃ states outs es, decodeBlob x.lib ps (blob.getD c.initialBlob) = .ok states ∧ SameSignatures x ps hs₀ hs ∧
        Chain x n keys ps hs states batch outs d' ∧ Stores x ps (keptStates ps outs) es ∧ encode x.lib (.seq false es) = .ok blob' ∧
        hs' = outs.map Out.hidden := by
  obtain ⟨hp, hsg, -⟩ := make_ok x ps hs₀ hl₀ c hc
  have hql : c.prints.length = ps.length := signed_length x ps _ _ hsg
  unfold prepare
  rw [hp]
  cases e1 : decodeBlob x.lib ps (blob.getD c.initialBlob) with
  | error m => simp
  | ok states =>
    simp only []
    obtain ⟨h1, h2⟩ := decodeBlob_ok x.lib ps _ states e1
    have hst := steps_iff x n keys ps c.prints hs states batch hql hl h1 h2
    cases e2 : steps x n keys ps c.prints hs states batch with
    | error m =>
      simp only [reduceCtorEq, false_iff]
      rintro ⟨states', outs, es, hs1, hs2, hs3, hs4, -, -⟩
      injection hs1 with hs1
      subst hs1
      have := (hst _ _ _).2 ⟨outs, hs3, (signed_same x ps _ _ hsg hs).2 hs2, hs4, rfl⟩
      rw [e2] at this
      simp at this
    | ok r =>
      obtain ⟨d1, es, hs1⟩ := r
      simp only []
      obtain ⟨outs, a1, a2, a3, a4⟩ := (hst _ _ _).1 e2
      constructor
      · intro h
        cases e3 : encode x.lib (.seq false es) with
        | error m => rw [e3] at h; simp at h
        | ok b =>
          rw [e3] at h
          simp only [Except.ok.injEq, Prod.mk.injEq] at h
          obtain ⟨rfl, rfl, rfl⟩ := h
          exact ⟨states, outs, es, rfl, (signed_same x ps _ _ hsg hs).1 a2, a1, a3, e3, a4⟩
      · rintro ⟨states', outs', es', hs1', hs2, hs3, hs4, hs5, hs6⟩
        injection hs1' with hs1'
        subst hs1'
        have := (hst _ _ _).2 ⟨outs', hs3, (signed_same x ps _ _ hsg hs).2 hs2, hs4, hs6⟩
        rw [e2] at this
        simp only [Except.ok.injEq, Prod.mk.injEq] at this
        obtain ⟨rfl, rfl, rfl⟩ := this
        rw [hs5]

/-- **C102 (acceptance).** A batch is accepted exactly when the pipelines still declare what they declared when the chain was built, the
blob decodes for this chain, and the calls — each on the fields left by the one before, with its own state — were all clean and returned
states that can be stored. What is returned is what the last call left. -/
theorem C102_accepts [DecidableEq D] (x : Ext A D) (ps : List (Pipe A K H)) (hs₀ hs : List H) (hl₀ : hs₀.length = ps.length)
    (hl : hs.length = ps.length) (c : Composer A K H D) (hc : make x ps hs₀ = .ok c) (batch : Data A) (n : Nat) (keys : K)
    (blob : Option ByteArray) (d' : Data A) (hs' : List H) :
    (∃ blob', prepare x c hs batch n keys blob = .ok (d', blob', hs')) ↔
      ∃ states outs, decodeBlob x.lib ps (blob.getD c.initialBlob) = .ok states ∧ SameSignatures x ps hs₀ hs ∧
        Chain x n keys ps hs states batch outs d' ∧ (∀ s ∈ keptStates ps outs, Encodable s) ∧ hs' = outs.map Out.hidden := by
  have hv : VersionsOk ps := ((C102_build x ps hs₀ hl₀).1 ⟨c, hc⟩).versions
  constructor
  · rintro ⟨blob', h⟩
    obtain ⟨states, outs, es, h1, h2, h3, h4, h5, h6⟩ := (prepare_iff x ps hs₀ hs hl₀ hl c hc batch n keys blob d' blob' hs').1 h
    exact ⟨states, outs, h1, h2, h3, stores_encodable x ps _ es h4, h6⟩
  · rintro ⟨states, outs, h1, h2, h3, h4, h6⟩
    obtain ⟨es, hes⟩ := stores_exists x ps (keptStates ps outs) (chain_length x n keys ps hs states batch d' outs h3).2 h4
    obtain ⟨b, hb⟩ := (stores_seq x ps _ es hes false).2 hv
    exact ⟨b, (prepare_iff x ps hs₀ hs hl₀ hl c hc batch n keys blob d' b hs').2 ⟨states, outs, es, h1, h2, h3, hes, hb, h6⟩⟩

/-- **C102 (states).** The blob returned with an accepted batch gives every pipeline back the state it returned, in the form the encoding
gives it back (C07); the first blob gives every pipeline its initial state. -/
theorem C102_state [DecidableEq D] (x : Ext A D) (ps : List (Pipe A K H)) (hs₀ hs : List H) (hl₀ : hs₀.length = ps.length)
    (hl : hs.length = ps.length) (c : Composer A K H D) (hc : make x ps hs₀ = .ok c) (batch : Data A) (n : Nat) (keys : K)
    (blob : Option ByteArray) (d' : Data A) (blob' : ByteArray) (hs' : List H) (h : prepare x c hs batch n keys blob = .ok (d', blob', hs')) :
    ∃ states outs, decodeBlob x.lib ps (blob.getD c.initialBlob) = .ok states ∧ Chain x n keys ps hs states batch outs d' ∧
      ((∀ s ∈ keptStates ps outs, PyVal s) → decodeBlob x.lib ps blob' = .ok ((keptStates ps outs).map norm)) := by
  obtain ⟨states, outs, es, h1, h2, h3, h4, h5, h6⟩ := (prepare_iff x ps hs₀ hs hl₀ hl c hc batch n keys blob d' blob' hs').1 h
  exact ⟨states, outs, h1, h3, fun hv => stores_blob x ps _ es h4 hv false blob' h5⟩

theorem C102_initial (x : Ext A D) (ps : List (Pipe A K H)) (hs₀ : List H) (hl₀ : hs₀.length = ps.length) (c : Composer A K H D)
    (hc : make x ps hs₀ = .ok c) (hv : ∀ p ∈ ps, PyVal p.initial) :
    decodeBlob x.lib ps c.initialBlob = .ok (ps.map fun p => norm (handed p p.initial)) := by
  obtain ⟨-, -, ⟨es, h1, h2⟩, -⟩ := make_ok x ps hs₀ hl₀ c hc
  have := stores_blob x ps _ es h1 (by
    intro s hs
    obtain ⟨p, hp, rfl⟩ := List.mem_map.1 hs
    unfold handed
    cases p.stateful with
    | false => exact PyVal.null
    | true => exact hv p hp) false _ h2
  rw [this, List.map_map]
  rfl

/-- **C102 (other chains).** A blob stored by one chain is refused by any chain whose identifiers, versions or order differ. -/
theorem C102_other (x : Ext A D) (ps qs : List (Pipe A K H)) (ss es : List Val) (h : Stores x ps ss es) (t : Bool) (blob : ByteArray)
    (hb : encode x.lib (.seq t es) = .ok blob) (states : List Val) (hd : decodeBlob x.lib qs blob = .ok states) :
    qs.map (fun p => (p.id, p.version)) = ps.map (fun p => (p.id, p.version)) := by
  have h1 := C07_roundtrip x.lib _ (PyVal.seq t es (stores_pyval x ps ss es h)) blob hb
  unfold decodeBlob at hd
  rw [h1] at hd
  simp only [norm, normList_eq] at hd
  clear hb h1
  induction h generalizing qs states with
  | nil =>
    cases qs with
    | nil => rfl
    | cons q qs => simp [decodeEntries] at hd
  | @cons p ps s ss b es hbb hr ih =>
    cases qs with
    | nil => simp [decodeEntries] at hd
    | cons q qs =>
      rw [List.map_cons, decodeEntries] at hd
      cases he : decodeEntry x.lib q.id q.version (norm (entry p.id p.version b)) with
      | error m => rw [he] at hd; simp at hd
      | ok v =>
        rw [he] at hd
        simp only [] at hd
        cases hr2 : decodeEntries x.lib qs (es.map norm) with
        | error m => rw [hr2] at hd; simp at hd
        | ok vs =>
          have ih' := ih qs vs hr2
          obtain ⟨-, t', hx, heq⟩ := decodeEntry_ok x.lib _ _ _ _ he
          simp only [entry, norm, normList, Val.seq.injEq, List.cons.injEq, Val.str.injEq, Val.int.injEq] at heq
          rw [List.map_cons, List.map_cons, ih', heq.2.1, heq.2.2.1]

theorem chain_guard (x : Ext A D) (n : Nat) (keys : K) (ps : List (Pipe A K H)) (hs : List H) (ss : List Val) (d d' : Data A)
    (outs : List (Out A H)) (h : Chain x n keys ps hs ss d outs d') :
    (∀ k f, get d k = some f → ∃ g, get d' k = some g ∧ x.digest g = x.digest f) ∧
    (∀ k f, get d' k = some f → get d k = none → ∃ p ∈ ps, ∃ o ∈ p.outputs, o.name = k) ∧
    (∀ p ∈ ps, ∀ o ∈ p.outputs, get d o.name = none ∧ (o.required = true → ∃ f, get d' o.name = some f)) := by
  induction h with
  | nil d =>
    refine ⟨fun k f hf => ⟨f, hf, rfl⟩, fun k f h1 h2 => ?_, by simp⟩
    rw [h1] at h2; simp at h2
  | @cons p ps h hs s ss d out outs d' hrun hclean hrest ih =>
    obtain ⟨i1, i2, i3⟩ := ih
    refine ⟨fun k f hf => ?_, fun k f h1 h2 => ?_, ?_⟩
    · obtain ⟨g, hg, he⟩ := hclean.kept k f hf
      obtain ⟨g', hg', he'⟩ := i1 k g hg
      exact ⟨g', hg', he'.trans he⟩
    · cases hm : get out.data k with
      | none =>
        obtain ⟨q, hq, o, ho, hn⟩ := i2 k f h1 hm
        exact ⟨q, List.mem_cons_of_mem _ hq, o, ho, hn⟩
      | some g =>
        obtain ⟨o, ho, hn⟩ := hclean.declared k g hm h2
        exact ⟨p, by simp, o, ho, hn⟩
    · intro q hq o ho
      rcases List.mem_cons.1 hq with rfl | hq
      · refine ⟨hclean.fresh o ho, fun hr => ?_⟩
        obtain ⟨f, hf⟩ := (hclean.outputs o ho).1 hr
        obtain ⟨g, hg, -⟩ := i1 _ f hf
        exact ⟨g, hg⟩
      · obtain ⟨j1, j2⟩ := i3 q hq o ho
        refine ⟨?_, j2⟩
        cases hd : get d o.name with
        | none => rfl
        | some f =>
          obtain ⟨g, hg, -⟩ := hclean.kept _ f hd
          rw [j1] at hg
          simp at hg

/-- **C102 (guard).** Whatever the pipelines do, a batch that is accepted still has every field it came with, with the same digest; the
other fields are declared outputs, none of which was there before; every required output is there; and every pipeline still declares the
same thing, so that the next batch finds the chain as it was built. -/
theorem C102_guard [DecidableEq D] (x : Ext A D) (ps : List (Pipe A K H)) (hs₀ hs : List H) (hl₀ : hs₀.length = ps.length)
    (hl : hs.length = ps.length) (c : Composer A K H D) (hc : make x ps hs₀ = .ok c) (batch : Data A) (n : Nat) (keys : K)
    (blob : Option ByteArray) (d' : Data A) (blob' : ByteArray) (hs' : List H) (h : prepare x c hs batch n keys blob = .ok (d', blob', hs')) :
    (∀ k f, get batch k = some f → ∃ g, get d' k = some g ∧ x.digest g = x.digest f) ∧
    (∀ k f, get d' k = some f → get batch k = none → ∃ p ∈ ps, ∃ o ∈ p.outputs, o.name = k) ∧
    (∀ p ∈ ps, ∀ o ∈ p.outputs, get batch o.name = none ∧ (o.required = true → ∃ f, get d' o.name = some f)) ∧
    SameSignatures x ps hs₀ hs' ∧ hs'.length = ps.length := by
  obtain ⟨states, outs, es, h1, h2, h3, h4, h5, h6⟩ := (prepare_iff x ps hs₀ hs hl₀ hl c hc batch n keys blob d' blob' hs').1 h
  obtain ⟨g1, g2, g3⟩ := chain_guard x n keys ps hs states batch d' outs h3
  refine ⟨g1, g2, g3, ?_, by rw [h6, List.length_map]; exact (chain_length x n keys ps hs states batch d' outs h3).1⟩
  rw [h6]
  clear g1 g2 g3 h6 h5 h4 h1 h hc hl hl₀
  induction h3 generalizing hs₀ with
  | nil => exact h2
  | cons hrun hclean _ ih =>
    cases h2 with
    | cons ha hb =>
      obtain ⟨b0, b, e1, e2, e3⟩ := ha
      obtain ⟨b1, e4, e5⟩ := hclean.own
      rw [e2] at e4
      injection e4 with e4
      subst e4
      exact .cons ⟨b0, b, e1, e5, e3⟩ (ih _ hb)

end Verif.Pipe
