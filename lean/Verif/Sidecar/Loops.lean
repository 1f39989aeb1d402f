import Verif.Sidecar.Lemmas

/-! # Lemmas for C101: the three loops -/
namespace Verif.Sidecar
open Verif.Ckpt (Name toInt)

variable {V : Type}

/-! ### Export and load of one module -/

/-- The pending batches an export considers. -/
def pend (v : Vq V) : List (Tensor V) := if v.inited then [] else v.batches

def cnt (v : Vq V) : Nat := if v.inited then 0 else v.count

def expS (v : Vq V) : State V :=
  ⟨1, v.desc, pendingDtype v.desc (pend v), v.inited, cnt v,
    ⟨pendingDtype v.desc (pend v), [cnt v, v.desc.dimFeature], (pend v).flatMap Tensor.data⟩⟩

theorem exportState_ok (finite : V → Bool) (v : Vq V) (s : State V) (h : exportState finite v = .ok s) :
    s = expS v ∧ cnt v ≤ v.desc.target ∧ ((pend v).map Tensor.len).sum = cnt v ∧ (pend v).all (batchOk v.desc (pendingDtype v.desc (pend v))) = true ∧
      ((pend v).flatMap Tensor.data).all finite = true := by
  unfold exportState at h
  simp only [] at h
  by_cases h1 : v.desc.target < (if v.inited = true then 0 else v.count)
  · rw [if_pos h1] at h; simp at h
  rw [if_neg h1] at h
  by_cases h2 : ((if v.inited = true then [] else v.batches).map Tensor.len).sum ≠ (if v.inited = true then 0 else v.count)
  · rw [if_pos h2] at h; simp at h
  rw [if_neg h2] at h
  by_cases h3 : (if v.inited = true then [] else v.batches).all (batchOk v.desc (pendingDtype v.desc (if v.inited = true then [] else v.batches))) = false
  · rw [if_pos h3] at h; simp at h
  rw [if_neg h3] at h
  by_cases h4 : ((if v.inited = true then [] else v.batches).flatMap Tensor.data).all finite = false
  · rw [if_pos h4] at h; simp at h
  rw [if_neg h4] at h
  simp only [Except.ok.injEq] at h
  exact ⟨h.symm, not_lt.mp h1, not_not.mp h2, Bool.not_eq_false _ ▸ h3, Bool.not_eq_false _ ▸ h4⟩

/-- The module after a successful load. -/
def loaded (v : Vq V) (s : State V) : Vq V :=
  if s.inited then { v with initedPy := none }
  else { v with initedPy := none, batches := if s.count = 0 then [] else [s.samples], count := s.count, checked := false }

theorem loadState_ok (finite : V → Bool) (v w : Vq V) (s : State V) (h : loadState finite v s = .ok w) :
    w = loaded v s ∧ s.desc = v.desc ∧ s.inited = v.inited ∧ s.count ≤ v.desc.target ∧ s.samples.shape = [s.count, v.desc.dimFeature] ∧
      s.samples.dtype = s.dtype ∧ s.samples.data.all finite = true ∧ (s.inited = true → s.count = 0) := by
  unfold loadState at h
  by_cases h1 : s.version ≠ 1
  · rw [if_pos h1] at h; simp at h
  rw [if_neg h1] at h
  by_cases h2 : s.desc ≠ v.desc
  · rw [if_pos h2] at h; simp at h
  rw [if_neg h2] at h
  by_cases h3 : s.inited ≠ v.inited
  · rw [if_pos h3] at h; simp at h
  rw [if_neg h3] at h
  by_cases h4 : v.desc.target < s.count
  · rw [if_pos h4] at h; simp at h
  rw [if_neg h4] at h
  by_cases h5 : s.samples.shape ≠ [s.count, v.desc.dimFeature]
  · rw [if_pos h5] at h; simp at h
  rw [if_neg h5] at h
  by_cases h6 : s.samples.dtype ≠ s.dtype
  · rw [if_pos h6] at h; simp at h
  rw [if_neg h6] at h
  by_cases h7 : v.desc.toFp32 = true ∧ s.samples.dtype ≠ "torch.float32"
  · rw [if_pos h7] at h; simp at h
  rw [if_neg h7] at h
  by_cases h8 : (dtypeBytes s.samples.dtype).isSome = false
  · rw [if_pos h8] at h; simp at h
  rw [if_neg h8] at h
  by_cases h9 : s.samples.data.all finite = false
  · rw [if_pos h9] at h; simp at h
  rw [if_neg h9] at h
  by_cases h10 : s.inited = true ∧ s.count ≠ 0
  · rw [if_pos h10] at h; simp at h
  rw [if_neg h10] at h
  refine ⟨?_, not_not.mp h2, not_not.mp h3, not_lt.mp h4, not_not.mp h5, not_not.mp h6, Bool.not_eq_false _ ▸ h9,
    fun hi => not_not.mp fun hc => h10 ⟨hi, hc⟩⟩
  unfold loaded
  by_cases hi : s.inited = true
  · rw [if_pos hi] at h ⊢; simp only [Except.ok.injEq] at h; exact h.symm
  · rw [if_neg hi] at h ⊢; simp only [Except.ok.injEq] at h; exact h.symm

/-- What makes a module capturable. -/
structure Good (finite : V → Bool) (mode : String) (v : Vq V) : Prop where
  exp : exportState finite v = .ok (expS v)
  dt : expectedDtype v.desc (cnt v) mode = .ok (pendingDtype v.desc (pend v))
  some : (dtypeBytes (pendingDtype v.desc (pend v))).isSome = true

theorem good_load (finite : V → Bool) (mode : String) (v w : Vq V) (h : Good finite mode v) (hd : w.desc = v.desc) (hi : w.inited = v.inited) :
    loadState finite w (expS v) = .ok (loaded w (expS v)) := by
  obtain ⟨_, h1, h2, h3, h4⟩ := exportState_ok finite v _ h.exp
  have hc : v.inited = true → cnt v = 0 := fun h => by unfold cnt; rw [if_pos h]
  have h32 : v.desc.toFp32 = true → pendingDtype v.desc (pend v) = "torch.float32" := by
    intro ht
    have := h.dt
    unfold expectedDtype at this
    by_cases hm : mode ≠ "no" ∧ mode ≠ "bf16" ∧ mode ≠ "fp16"
    · rw [if_pos hm] at this; simp at this
    · rw [if_neg hm, if_pos ht] at this
      simp only [Except.ok.injEq] at this
      exact this.symm
  have hs := h.some
  unfold loadState
  rw [if_neg (fun hh => hh rfl), if_neg (fun hh => hh hd.symm), if_neg (fun hh => hh hi.symm),
    if_neg (by rw [hd]; exact not_lt.mpr h1), if_neg (by rw [hd]; exact fun hh => hh rfl), if_neg (fun hh => hh rfl),
    if_neg (by rw [hd]; rintro ⟨ht, hne⟩; exact hne (h32 ht)), if_neg (by show ¬ (dtypeBytes (pendingDtype v.desc (pend v))).isSome = false; rw [hs]; decide),
    if_neg (by show ¬ ((pend v).flatMap Tensor.data).all finite = false; rw [h4]; decide),
    if_neg (by rintro ⟨ht, hne⟩; exact hne (hc ht))]
  unfold loaded
  by_cases hin : (expS v).inited = true
  · rw [if_pos hin, if_pos hin]
  · rw [if_neg hin, if_neg hin]

/-! ### The capture loop -/

def statOf (store : Nat → Vq V) (e : Entry) : Stat :=
  ⟨e.model, e.path, (expS (store e.id)).dtype, (expS (store e.id)).count, (expS (store e.id)).samples.numel * (expS (store e.id)).samples.elemSize⟩

def savedOf (store : Nat → Vq V) (e : Entry) : Saved V := ⟨e.aliases, expS (store e.id)⟩

def rawSum (store : Nat → Vq V) (d : List Entry) (r : Nat) : Nat := d.foldl (fun r e => r + (statOf store e).rawBytes) r

def maxSum (store : Nat → Vq V) (d : List Entry) (r : Nat) : Nat :=
  d.foldl (fun r e => r + (store e.id).desc.target * (store e.id).desc.dimFeature * (expS (store e.id)).samples.elemSize) r

def anyPart (store : Nat → Vq V) (d : List Entry) (b : Bool) : Bool := d.foldl (fun b e => b || decide (0 < (statOf store e).count)) b

theorem capture_loop (finite : V → Bool) (store : Nat → Vq V) (mode : String) (d : List Entry) (a a' : Acc V)
    (h : loop (captureOne finite store mode) a d = .ok a') :
    (∀ e ∈ d, Good finite mode (store e.id)) ∧
    a' = ⟨assemble (savedOf store) d a.models, rawSum store d a.raw, maxSum store d a.maxRaw, anyPart store d a.partly,
      a.stats ++ d.map (statOf store)⟩ := by
  induction d generalizing a with
  | nil =>
    simp only [loop, Except.ok.injEq] at h
    subst h
    exact ⟨by simp, by simp [assemble, rawSum, maxSum, anyPart]⟩
  | cons e d ih =>
    unfold loop at h
    cases h1 : captureOne finite store mode a e with
    | error x => rw [h1] at h; simp at h
    | ok b =>
      rw [h1] at h
      simp only [] at h
      unfold captureOne at h1
      cases h2 : exportState finite (store e.id) with
      | error x => rw [h2] at h1; simp at h1
      | ok s =>
        rw [h2] at h1
        simp only [] at h1
        obtain ⟨rfl, _⟩ := exportState_ok finite _ s h2
        cases h3 : expectedDtype (expS (store e.id)).desc (expS (store e.id)).count mode with
        | error x => rw [h3] at h1; simp at h1
        | ok want =>
          rw [h3] at h1
          simp only [] at h1
          by_cases h4 : (dtypeBytes (expS (store e.id)).dtype).isSome = false ∨ (expS (store e.id)).dtype ≠ want
          · rw [if_pos h4] at h1; simp at h1
          · rw [if_neg h4] at h1
            rw [not_or, not_not] at h4
            simp only [Except.ok.injEq] at h1
            obtain ⟨hg, ha⟩ := ih b h
            refine ⟨?_, ?_⟩
            · intro e' he'
              rcases List.mem_cons.mp he' with rfl | he'
              · refine ⟨h2, ?_, ?_⟩
                · rw [← h4.2] at h3; exact h3
                · have := h4.1; exact Bool.not_eq_false _ ▸ this
              · exact hg e' he'
            · rw [ha, ← h1]
              simp only [List.map_cons, List.append_assoc, List.singleton_append]
              rfl

/-! ### The validation loop -/

theorem check_loop (finite : V → Bool) (store : Nat → Vq V) (mode : String) (D : List Entry)
    (hkey : ∀ e ∈ D, ∀ e' ∈ D, key e = key e' → e = e') (d : List Entry) (hsub : ∀ e ∈ d, e ∈ D)
    (hg : ∀ e ∈ d, Good finite mode (store e.id)) (hnd : (d.map key).Nodup) (a : VAcc)
    (hfresh : ∀ e ∈ d, ∀ x ∈ a.seen, x.1 ≠ key e) :
    loop (checkStat (descByKey (schemaOf store D)) mode) a (d.map (statOf store)) =
      .ok ⟨a.seen ++ d.map (fun e => (key e, statOf store e)), rawSum store d a.raw, maxSum store d a.maxRaw, anyPart store d a.partly⟩ := by
  induction d generalizing a with
  | nil => simp [loop, rawSum, maxSum, anyPart]
  | cons e d ih =>
    rw [List.map_cons]
    have hge := hg e (List.mem_cons_self ..)
    obtain ⟨_, hle, _⟩ := exportState_ok finite _ _ hge.exp
    obtain ⟨w, hw⟩ := Option.isSome_iff_exists.mp hge.some
    have hfind : findKey (descByKey (schemaOf store D)) ((statOf store e).model, (statOf store e).path) = some (schemaEntry store e) := by
      refine findKey_eq _ _ _ ((desc_mem store D _ _).mpr ⟨e, hsub e (List.mem_cons_self ..), rfl, rfl⟩) ?_
      intro v' hv'
      obtain ⟨e', he', hk, rfl⟩ := (desc_mem store D _ _).mp hv'
      rw [hkey e (hsub e (List.mem_cons_self ..)) e' he' hk]
    have hone : checkStat (descByKey (schemaOf store D)) mode a (statOf store e) =
        .ok ⟨a.seen ++ [(key e, statOf store e)], a.raw + (statOf store e).rawBytes,
          a.maxRaw + (store e.id).desc.target * (store e.id).desc.dimFeature * (expS (store e.id)).samples.elemSize,
          a.partly || decide (0 < (statOf store e).count)⟩ := by
      unfold checkStat
      rw [if_neg (by
        intro h
        obtain ⟨x, hx, hxe⟩ := List.any_eq_true.mp h
        exact hfresh e (List.mem_cons_self ..) x hx (of_decide_eq_true hxe)), hfind]
      simp only []
      have hdt : expectedDtype (schemaEntry store e).desc (statOf store e).count mode = .ok (pendingDtype (store e.id).desc (pend (store e.id))) := hge.dt
      rw [hdt]
      simp only []
      have hw' : dtypeBytes (statOf store e).dtype = some w := hw
      rw [hw']
      simp only []
      have hel : (expS (store e.id)).samples.elemSize = w := by
        unfold Tensor.elemSize
        show (dtypeBytes (pendingDtype (store e.id).desc (pend (store e.id)))).getD 1 = w
        rw [hw]; rfl
      rw [if_neg (by
        rintro (h | h | h | h)
        · exact absurd h (not_lt.mpr hle)
        · refine h ?_
          show (expS (store e.id)).samples.numel * (expS (store e.id)).samples.elemSize = _
          rw [hel]
          show (cnt (store e.id) * ((store e.id).desc.dimFeature * 1)) * w = cnt (store e.id) * (store e.id).desc.dimFeature * w
          rw [Nat.mul_one]
        · refine h.2 ?_
          show cnt (store e.id) = 0
          unfold cnt
          exact if_pos h.1
        · exact h rfl)]
      rw [hel]
      rfl
    unfold loop
    rw [hone]
    simp only []
    rw [List.map_cons, List.nodup_cons] at hnd
    rw [ih (fun e' he' => hsub e' (List.mem_cons_of_mem _ he')) (fun e' he' => hg e' (List.mem_cons_of_mem _ he')) hnd.2 _ (by
      intro e' he' x hx
      rcases List.mem_append.mp hx with hx | hx
      · exact hfresh e' (List.mem_cons_of_mem _ he') x hx
      · rw [List.mem_singleton] at hx
        subst hx
        intro hk
        exact hnd.1 (List.mem_map.mpr ⟨e', he', hk.symm⟩))]
    simp only [List.append_assoc, List.map_cons, List.singleton_append]
    rfl

/-! ### The restoring loop -/

theorem restoreOne_ok (finite : V → Bool) (pl : Payload V) (stats : List ((String × String) × Stat)) (store store' : Nat → Vq V) (e : Entry)
    (h : restoreOne finite pl stats store e = .ok store') :
    ∃ s v, savedAt pl.models (key e) = some s ∧ s.aliases = e.aliases ∧ loadState finite (store e.id) s.state = .ok v ∧
      (∃ st, findKey stats (key e) = some st ∧ s.state.dtype = st.dtype ∧ s.state.count = st.count) ∧
      store' = fun i => if i = e.id then v else store i := by
  unfold restoreOne at h
  cases h1 : savedAt pl.models (e.model, e.path) with
  | none => rw [h1] at h; simp at h
  | some s =>
    cases h2 : findKey stats (e.model, e.path) with
    | none => rw [h1, h2] at h; simp at h
    | some st =>
      rw [h1, h2] at h
      simp only [] at h
      by_cases h3 : s.aliases ≠ e.aliases
      · rw [if_pos h3] at h; simp at h
      rw [if_neg h3] at h
      by_cases h4 : s.state.dtype ≠ st.dtype ∨ s.state.count ≠ st.count ∨ s.state.samples.numel * s.state.samples.elemSize ≠ st.rawBytes
      · rw [if_pos h4] at h; simp at h
      rw [if_neg h4] at h
      rw [not_or, not_or, not_not, not_not] at h4
      cases h5 : loadState finite (store e.id) s.state with
      | error x => rw [h5] at h; simp at h
      | ok v =>
        rw [h5] at h
        simp only [Except.ok.injEq] at h
        exact ⟨s, v, h1, not_not.mp h3, h5, ⟨st, h2, h4.1, h4.2.1⟩, h.symm⟩

theorem restore_loop_inv (finite : V → Bool) (pl : Payload V) (stats : List ((String × String) × Stat)) (d : List Entry)
    (hnd : (d.map Entry.id).Nodup) (store store' : Nat → Vq V) (h : loop (restoreOne finite pl stats) store d = .ok store') :
    (∀ e ∈ d, ∃ s, savedAt pl.models (key e) = some s ∧ s.aliases = e.aliases ∧ loadState finite (store e.id) s.state = .ok (store' e.id) ∧
      ∃ st, findKey stats (key e) = some st ∧ s.state.dtype = st.dtype ∧ s.state.count = st.count) ∧
      ∀ i, (∀ e ∈ d, e.id ≠ i) → store' i = store i := by
  induction d generalizing store with
  | nil =>
    simp only [loop, Except.ok.injEq] at h
    subst h
    exact ⟨by simp, fun _ _ => rfl⟩
  | cons e d ih =>
    rw [List.map_cons, List.nodup_cons] at hnd
    have hne : ∀ e' ∈ d, e'.id ≠ e.id := fun e' he' h => hnd.1 (List.mem_map.mpr ⟨e', he', h⟩)
    unfold loop at h
    cases h1 : restoreOne finite pl stats store e with
    | error x => rw [h1] at h; simp at h
    | ok s1 =>
      rw [h1] at h
      simp only [] at h
      obtain ⟨s, v, a1, a2, a3, a4, rfl⟩ := restoreOne_ok finite pl stats store s1 e h1
      obtain ⟨b1, b2⟩ := ih hnd.2 _ h
      refine ⟨?_, ?_⟩
      · intro e' he'
        rcases List.mem_cons.mp he' with rfl | he'
        · refine ⟨s, a1, a2, ?_, a4⟩
          rw [b2 e'.id (fun x hx => hne x hx)]
          simp only [if_true]
          exact a3
        · obtain ⟨s', c1, c2, c3, c4⟩ := b1 e' he'
          rw [if_neg (hne e' he')] at c3
          exact ⟨s', c1, c2, c3, c4⟩
      · intro i hi
        rw [b2 i (fun x hx => hi x (List.mem_cons_of_mem _ hx))]
        rw [if_neg (fun h => hi e (List.mem_cons_self ..) h.symm)]

end Verif.Sidecar
