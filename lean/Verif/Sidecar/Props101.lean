import Verif.Sidecar.Loops
import Verif.Sidecar.Props100
import Mathlib.Algebra.BigOperators.Group.List.Basic
import Mathlib.Algebra.Order.BigOperators.Group.List

/-!
# C101: a VQ runtime sidecar restores exactly the pending samples it was captured from, and only if it fits the run
-/
namespace Verif.Sidecar
open Verif.Ckpt (Name toInt)

variable {V : Type}

/-! ### Specification -/

/-- The checkpointed model `m` has the vector quantizer `i` at `path`. -/
def At (p : Proc V) (m path : String) (i : Nat) : Prop := ∃ l, (m, l) ∈ p.models ∧ (path, i) ∈ l ∧ p.isVq i = true

/-- A path of a model names one module. -/
def OneModulePerPath (p : Proc V) : Prop := ∀ m path i j, At p m path i → At p m path j → i = j

/-- The pending batches are tensors: as many entries as their shape says. -/
def TensorsOk (p : Proc V) : Prop := ∀ m path i, At p m path i → ∀ b ∈ (p.store i).batches, b.data.length = b.shape.prod

/-- `q` is a later process of the same run at `iteration`: the same models, sharing modules the same way (identities are renamed by `σ`),
the same configuration and the same initialisation flags (they are part of the model weights), rank, world size and precision. Everything
else about the modules of `q` is arbitrary. -/
structure SameRun (σ : Nat → Nat) (p q : Proc V) (iteration : Nat) : Prop where
  inj : Function.Injective σ
  models : q.models = p.models.map fun m => (m.1, m.2.map fun s => (s.1, σ s.2))
  isVq : ∀ i, q.isVq (σ i) = p.isVq i
  desc : ∀ m path i, At p m path i → (q.store (σ i)).desc = (p.store i).desc
  inited : ∀ m path i, At p m path i → (q.store (σ i)).inited = (p.store i).inited
  precision : q.precision = p.precision
  rank : q.rank = p.rank
  world : q.world = p.world
  iteration : q.iteration = iteration

/-- The samples a module has pending: all entries, in order. -/
def samples (v : Vq V) : List V := v.batches.flatMap Tensor.data

/-! ### Auxiliary -/

theorem sites_iff (p : Proc V) (m path : String) (i : Nat) : (m, path, i) ∈ sites p ↔ At p m path i := by
  unfold sites At
  rw [List.mem_flatMap]
  constructor
  · rintro ⟨x, hx, h⟩
    obtain ⟨s, hs, heq⟩ := List.mem_map.mp h
    rw [List.mem_filter] at hs
    simp only [Prod.mk.injEq] at heq
    obtain ⟨a, b⟩ := s
    obtain ⟨h1, h2, h3⟩ := heq
    simp only at h2 h3 hs
    subst h1 h2 h3
    exact ⟨x.2, hx, hs.1, hs.2⟩
  · rintro ⟨l, hl, hs, hv⟩
    exact ⟨(m, l), hl, List.mem_map.mpr ⟨(path, i), List.mem_filter.mpr ⟨hs, hv⟩, rfl⟩⟩

theorem uniq_sites (p : Proc V) (h : OneModulePerPath p) : ∀ m q i j, (m, q, i) ∈ sites p → (m, q, j) ∈ sites p → i = j :=
  fun m q i j hi hj => h m q i j ((sites_iff p m q i).mp hi) ((sites_iff p m q j).mp hj)

theorem sites_ren (σ : Nat → Nat) (p q : Proc V) (k : Nat) (h : SameRun σ p q k) :
    sites q = (sites p).map fun s => (s.1, s.2.1, σ s.2.2) := by
  unfold sites
  rw [h.models, List.flatMap_map, List.map_flatMap]
  congr 1
  funext m
  simp only [List.map_map]
  rw [List.filter_map, List.map_map]
  congr 1
  congr 1
  funext s
  exact h.isVq s.2

theorem discover_ren (σ : Nat → Nat) (p q : Proc V) (k : Nat) (h : SameRun σ p q k) (d : List Entry) (hd : discover p = .ok d) :
    discover q = .ok (d.map (ren σ)) := by
  unfold discover at hd ⊢
  have hany : (q.models.any fun m => decide (m.1 = "")) = p.models.any fun m => decide (m.1 = "") := by
    rw [h.models, List.any_map]; rfl
  rw [hany]
  by_cases hm : (p.models.any fun m => decide (m.1 = "")) = true
  · rw [if_pos hm] at hd; simp at hd
  · rw [if_neg hm] at hd ⊢
    simp only [Except.ok.injEq] at hd ⊢
    rw [sites_ren σ p q k h, ← hd]
    exact foldl_ren σ h.inj (sites p) []

theorem foldl_congr_mem {α β : Type} (f g : β → α → β) (l : List α) (b : β) (h : ∀ b, ∀ a ∈ l, f b a = g b a) :
    l.foldl f b = l.foldl g b := by
  induction l generalizing b with
  | nil => rfl
  | cons a l ih =>
    rw [List.foldl_cons, List.foldl_cons, h b a (List.mem_cons_self ..), ih _ fun b a ha => h b a (List.mem_cons_of_mem _ ha)]

theorem schema_ren (σ : Nat → Nat) (p q : Proc V) (k : Nat) (h : SameRun σ p q k) (d : List Entry) (hd : Inv (sites p) d) :
    schemaOf q.store (d.map (ren σ)) = schemaOf p.store d := by
  unfold schemaOf
  rw [List.foldl_map]
  refine foldl_congr_mem _ _ _ _ ?_
  intro s e he
  have hat := (sites_iff p _ _ _).mp (key_site p d hd e he)
  show pushKey s e.model ⟨e.path, e.aliases, (q.store (σ e.id)).desc, (q.store (σ e.id)).inited⟩ = _
  rw [h.desc _ _ _ hat, h.inited _ _ _ hat]

theorem zero_samples (bs : List (Tensor V)) (hok : ∀ b ∈ bs, b.data.length = b.shape.prod) (d : Desc) (dt : String)
    (hb : bs.all (batchOk d dt) = true) (hs : (bs.map Tensor.len).sum = 0) : bs.flatMap Tensor.data = [] := by
  rw [List.flatMap_eq_nil_iff]
  intro b hbm
  have h1 := List.all_eq_true.mp hb b hbm
  unfold batchOk at h1
  simp only [Bool.and_eq_true, decide_eq_true_eq] at h1
  have h2 : b.len = 0 := by
    have := List.single_le_sum (l := bs.map Tensor.len) (by simp) b.len (List.mem_map.mpr ⟨b, hbm, rfl⟩)
    omega
  have h3 : b.shape.prod = 0 := by
    unfold Tensor.len at h2
    cases hsh : b.shape with
    | nil => rw [hsh] at h1; simp at h1
    | cons x xs =>
      rw [hsh] at h2
      simp only [List.headD_cons] at h2
      rw [h2, List.prod_cons, Nat.zero_mul]
  exact List.length_eq_zero_iff.mp ((hok b hbm).trans h3)

/-! ### Theorems -/

/-- **C101 (discovery).** Every vector quantizer of the checkpointed models is captured exactly once, however many paths it has: the
discovered entries have distinct identities, cover exactly the quantizers present, and list all paths of theirs in order, the first
being the one it is stored under. -/
theorem C101_discovery (p : Proc V) (d : List Entry) (h : discover p = .ok d) :
    (d.map Entry.id).Nodup ∧ (∀ i, (∃ m path, At p m path i) ↔ ∃ e ∈ d, e.id = i) ∧
    ∀ e ∈ d, (∀ m path, (m, path) ∈ e.aliases ↔ At p m path e.id) ∧ e.aliases.head? = some (e.model, e.path) := by
  have hi := discover_inv p d h
  refine ⟨hi.nodup, ?_, ?_⟩
  · intro i
    rw [← hi.ids i]
    constructor
    · rintro ⟨m, path, hat⟩
      exact ⟨(m, path, i), (sites_iff p m path i).mpr hat, rfl⟩
    · rintro ⟨⟨m, path, j⟩, hs, rfl⟩
      exact ⟨m, path, (sites_iff p m path j).mp hs⟩
  · intro e he
    refine ⟨?_, hi.head e he⟩
    intro m path
    rw [hi.aliases e he, List.mem_map]
    constructor
    · rintro ⟨⟨a, b, c⟩, hs, heq⟩
      rw [List.mem_filter] at hs
      have hid := of_decide_eq_true hs.2
      simp only [Prod.mk.injEq] at heq hid
      obtain ⟨rfl, rfl⟩ := heq
      rw [← hid]
      exact (sites_iff p _ _ _).mp hs.1
    · intro hat
      exact ⟨(m, path, e.id), List.mem_filter.mpr ⟨(sites_iff p _ _ _).mpr hat, by simp⟩, rfl⟩

/-- What a successful capture wrote. -/
theorem write_ok (x : Ext V) (p : Proc V) (dir dir' : Dir) (iteration : Nat) (generation : Name) (pid : Nat) (nonce : Name)
    (mids : List Bytes) (fault : Fault) (m : Manifest)
    (h : writeSidecar x p dir iteration generation pid nonce mids fault = (.ok m, dir')) :
    ∃ d mode, discover p = .ok d ∧ autocastMode p = .ok mode ∧ (∀ e ∈ d, Good x.finite mode (p.store e.id)) ∧
      runtimeBasename iteration generation p.rank = .ok m.basename ∧ ∃ b, dir' m.basename = some b ∧
      b = x.encode ⟨1, assemble (savedOf p.store) d [], schemaOf p.store d, mode, iteration, p.world, p.rank, generation⟩ ∧
      ¬ (maxSum p.store d 0 + allowance (maxSum p.store d 0) < b.length ∨ rawSum p.store d 0 + allowance (rawSum p.store d 0) < b.length) ∧
      m = ⟨1, schemaOf p.store d, mode, d.map (statOf p.store), anyPart p.store d false, rawSum p.store d 0,
        maxSum p.store d 0 + allowance (maxSum p.store d 0), m.basename, x.sha b, b.length, iteration, generation, p.rank⟩ := by
  unfold writeSidecar at h
  cases h1 : runtimeBasename iteration generation p.rank with
  | error e => rw [h1] at h; simp at h
  | ok basename =>
    rw [h1] at h
    simp only [] at h
    cases h2 : capture x.finite p with
    | error e => rw [h2] at h; simp at h
    | ok c =>
      rw [h2] at h
      simp only [] at h
      obtain ⟨r, hr⟩ : ∃ r, r = publish dir (tempName iteration generation p.rank pid nonce) basename mids
        (x.encode (payloadOf c p iteration generation)) fault := ⟨_, rfl⟩
      rw [← hr] at h
      cases h3 : r.error with
      | some e => rw [h3] at h; simp at h
      | none =>
        rw [h3] at h
        simp only [] at h
        have hsucc := (C100_success dir (tempName iteration generation p.rank pid nonce) basename mids
          (x.encode (payloadOf c p iteration generation)) fault).2
        rw [← hr] at hsucc
        have hb := (hsucc h3).1
        rw [hb] at h
        simp only [] at h
        obtain ⟨b, hbe⟩ : ∃ b, b = x.encode (payloadOf c p iteration generation) := ⟨_, rfl⟩
        rw [← hbe] at h hb
        by_cases h4 : c.acc.maxRaw + allowance c.acc.maxRaw < b.length ∨ c.acc.raw + allowance c.acc.raw < b.length
        · rw [if_pos h4] at h; simp at h
        · rw [if_neg h4] at h
          simp only [Prod.mk.injEq, Except.ok.injEq] at h
          obtain ⟨hm, hdir⟩ := h
          unfold capture at h2
          cases h5 : discover p with
          | error e => rw [h5] at h2; simp at h2
          | ok d =>
            rw [h5] at h2
            simp only [] at h2
            cases h6 : autocastMode p with
            | error e => rw [h6] at h2; simp at h2
            | ok mode =>
              rw [h6] at h2
              simp only [] at h2
              cases h7 : loop (captureOne x.finite p.store mode) ⟨[], 0, 0, false, []⟩ d with
              | error e => rw [h7] at h2; simp at h2
              | ok a =>
                rw [h7] at h2
                simp only [Except.ok.injEq] at h2
                obtain ⟨hg, ha⟩ := capture_loop x.finite p.store mode d _ a h7
                simp only [List.nil_append] at ha
                refine ⟨d, mode, rfl, rfl, hg, ?_, b, ?_, ?_, ?_, ?_⟩
                · rw [← hm]
                · rw [← hm, ← hdir]; exact hb
                · rw [hbe, ← h2, ha]; rfl
                · rw [← h2, ha] at h4; exact h4
                · rw [← hm, ← h2, ha]

/-- **C101 (round trip).** Whatever the pending samples of the modules were when the sidecar of a rank was written, and however modules
are shared, a later process of the same run that finds the written file accepts it and ends with, in every quantizer, exactly the pending
samples saved — same count, same entries in the same order, same dtype — with its configuration and flag untouched; initialised
quantizers keep what they hold, and no other module is touched. -/
theorem C101_roundtrip (x : Ext V) (hcodec : ∀ pl, x.decode (x.encode pl) = some pl) (hsha : ∀ b, hexOk 64 (x.sha b) = true)
    (σ : Nat → Nat) (p q : Proc V) (huniq : OneModulePerPath p) (hten : TensorsOk p)
    (dir dir' dirq : Dir) (iteration : Nat) (generation : Name) (pid : Nat) (nonce : Name) (mids : List Bytes) (fault : Fault) (m : Manifest)
    (hw : writeSidecar x p dir iteration generation pid nonce mids fault = (.ok m, dir')) (hq : SameRun σ p q iteration)
    (hfile : dirq m.basename = dir' m.basename) :
    ∃ store', restoreSidecar x q dirq m = .ok store' ∧
      (∀ mn path i, At p mn path i →
        (store' (σ i)).desc = (q.store (σ i)).desc ∧ (store' (σ i)).inited = (q.store (σ i)).inited ∧
        ((p.store i).inited = true → (store' (σ i)).batches = (q.store (σ i)).batches ∧ (store' (σ i)).count = (q.store (σ i)).count) ∧
        ((p.store i).inited = false → (store' (σ i)).count = (p.store i).count ∧ samples (store' (σ i)) = samples (p.store i) ∧
          ∀ b ∈ (store' (σ i)).batches, ∀ b' ∈ (p.store i).batches, b.dtype = b'.dtype)) ∧
      ∀ j, (∀ mn path i, At p mn path i → σ i ≠ j) → store' j = q.store j := by
  obtain ⟨d, mode, hd, hmode, hg, hbase, b, hb, hbe, hbound, hm⟩ := write_ok x p dir dir' iteration generation pid nonce mids fault m hw
  have hi := discover_inv p d hd
  have hu := uniq_sites p huniq
  have hkn := key_nodup p d hi hu
  have hki : ∀ e ∈ d, ∀ e' ∈ d, key e = key e' → e = e' := fun e he e' he' => key_inj p d hi hu e e' he he'
  have hdq := discover_ren σ p q iteration hq d hd
  have hsq := schema_ren σ p q iteration hq d hi
  have hmq : autocastMode q = .ok mode := by unfold autocastMode at hmode ⊢; rw [hq.precision]; exact hmode
  have htok : Hex32 generation := C100_token_checked _ _ _ _ hbase
  have hname : m.basename = sidecarName iteration generation p.rank := by
    unfold runtimeBasename at hbase
    by_cases hc : groupsAre (matchSidecar (sidecarName iteration generation p.rank)) iteration generation p.rank = false
    · rw [if_pos hc] at hbase; simp at hbase
    · rw [if_neg hc] at hbase; simp only [Except.ok.injEq] at hbase; exact hbase.symm
  have hmatch := match_name iteration generation p.rank htok
  have hgroups : groupsAre (matchSidecar m.basename) q.iteration generation q.rank = true := by
    rw [hname, hmatch, hq.iteration, hq.rank]
    simp [groupsAre, Verif.Ckpt.toInt_fmt7, toInt_str]
  -- the manifest is accepted
  have hval : validate q m = .ok (d.map (ren σ), d.map (fun e => (key e, statOf p.store e)), maxSum p.store d 0 + allowance (maxSum p.store d 0)) := by
    have e1 : m.version = 1 := by rw [hm]
    have e2 : m.autocast = mode := by rw [hm]
    have e3 : m.generation = generation := by rw [hm]
    have e4 : m.iteration = iteration := by rw [hm]
    have e5 : m.rank = p.rank := by rw [hm]
    have e6 : m.sha = x.sha b := by rw [hm]
    have e7 : m.schema = schemaOf p.store d := by rw [hm]
    have e8 : m.modules = d.map (statOf p.store) := by rw [hm]
    have e9 : m.hasPartial = anyPart p.store d false := by rw [hm]
    have e10 : m.rawBytes = rawSum p.store d 0 := by rw [hm]
    have e11 : m.maximumBytes = maxSum p.store d 0 + allowance (maxSum p.store d 0) := by rw [hm]
    unfold validate
    rw [if_neg (fun h => h e1), hmq]
    simp only []
    rw [if_neg (fun h => h e2), if_neg (by
      rintro (h | h | h | h | h)
      · rw [e3, hgroups] at h; simp at h
      · exact h (e4.trans hq.iteration.symm)
      · exact h (e5.trans hq.rank.symm)
      · rw [e3, (hexOk_iff 32 generation).mpr htok] at h; simp at h
      · rw [e6, hsha b] at h; simp at h), hdq]
    simp only []
    rw [hsq, if_neg (fun h => h e7.symm), e8, check_loop x.finite p.store mode d hki d (fun _ h => h) hg hkn _ (by simp)]
    simp only [List.nil_append]
    rw [if_neg (by
      intro h
      have h' : (descByKey (schemaOf p.store d)).all (fun e => (d.map fun e => (key e, statOf p.store e)).any fun k => decide (k.1 = e.1)) = true := by
        rw [List.all_eq_true]
        rintro ⟨k, s⟩ hks
        obtain ⟨e, he, hk, _⟩ := (desc_mem p.store d k s).mp hks
        exact List.any_eq_true.mpr ⟨(key e, statOf p.store e), List.mem_map.mpr ⟨e, he, rfl⟩, decide_eq_true hk.symm⟩
      rw [h'] at h; simp at h), if_neg (by
      rintro (h | h | h)
      · exact h e9
      · exact h e10
      · exact h e11)]
  -- the file is accepted
  obtain ⟨pl, hpl⟩ : ∃ pl : Payload V, pl = ⟨1, assemble (savedOf p.store) d [], schemaOf p.store d, mode, iteration, p.world, p.rank, generation⟩ := ⟨_, rfl⟩
  have hdec : x.decode b = some pl := by rw [hbe, hpl]; exact hcodec _
  have hmodels : pl.models = assemble (savedOf p.store) d [] := by rw [hpl]
  have hone : ∀ e ∈ d.map (ren σ), ∃ e0 ∈ d, e = ren σ e0 := fun e he => by
    obtain ⟨e0, h0, h1⟩ := List.mem_map.mp he
    exact ⟨e0, h0, h1.symm⟩
  have hfindst : ∀ e ∈ d, findKey (d.map fun e => (key e, statOf p.store e)) (key e) = some (statOf p.store e) := by
    intro e he
    refine findKey_eq _ _ _ (List.mem_map.mpr ⟨e, he, rfl⟩) ?_
    intro v' hv'
    obtain ⟨e', he', heq⟩ := List.mem_map.mp hv'
    simp only [Prod.mk.injEq] at heq
    rw [← heq.2, hki e' he' e he heq.1]
  -- one step of the restoring loop
  have hstep : ∀ (st : Nat → Vq V) (e0 : Entry), e0 ∈ d → st (σ e0.id) = q.store (σ e0.id) →
      restoreOne x.finite pl (d.map fun e => (key e, statOf p.store e)) st (ren σ e0) =
        .ok (fun i => if i = (ren σ e0).id then loaded (q.store (σ e0.id)) (expS (p.store e0.id)) else st i) := by
    intro st e0 he0 hst
    have hat := (sites_iff p _ _ _).mp (key_site p d hi e0 he0)
    have hload := good_load x.finite mode (p.store e0.id) (q.store (σ e0.id)) (hg e0 he0) (hq.desc _ _ _ hat) (hq.inited _ _ _ hat)
    unfold restoreOne
    have e1 : savedAt pl.models ((ren σ e0).model, (ren σ e0).path) = some (savedOf p.store e0) := by
      rw [hmodels]; exact assemble_at (savedOf p.store) d [] hkn e0 he0
    have e2 : findKey (d.map fun e => (key e, statOf p.store e)) ((ren σ e0).model, (ren σ e0).path) = some (statOf p.store e0) := hfindst e0 he0
    rw [e1, e2]
    simp only []
    rw [if_neg (fun h => h rfl), if_neg (by
      rintro (h | h | h)
      · exact h rfl
      · exact h rfl
      · exact h rfl)]
    have e3 : loadState x.finite (st (ren σ e0).id) (savedOf p.store e0).state = .ok (loaded (q.store (σ e0.id)) (expS (p.store e0.id))) := by
      show loadState x.finite (st (σ e0.id)) (expS (p.store e0.id)) = _
      rw [hst]; exact hload
    rw [e3]
  have hloop : ∃ store', loop (restoreOne x.finite pl (d.map fun e => (key e, statOf p.store e))) q.store (d.map (ren σ)) = .ok store' ∧
      (∀ e ∈ d, store' (σ e.id) = loaded (q.store (σ e.id)) (expS (p.store e.id))) ∧ ∀ j, (∀ e ∈ d, σ e.id ≠ j) → store' j = q.store j := by
    have hgen : ∀ (l : List Entry), (∀ e ∈ l, e ∈ d) → (l.map Entry.id).Nodup → ∀ st : Nat → Vq V, (∀ e ∈ l, st (σ e.id) = q.store (σ e.id)) →
        ∃ store', loop (restoreOne x.finite pl (d.map fun e => (key e, statOf p.store e))) st (l.map (ren σ)) = .ok store' ∧
          (∀ e ∈ l, store' (σ e.id) = loaded (q.store (σ e.id)) (expS (p.store e.id))) ∧ ∀ j, (∀ e ∈ l, σ e.id ≠ j) → store' j = st j := by
      intro l
      induction l with
      | nil => intro _ _ st _; exact ⟨st, rfl, by simp, fun _ _ => rfl⟩
      | cons e l ih =>
        intro hsub hnd st hst
        rw [List.map_cons, List.nodup_cons] at hnd
        have hne : ∀ e' ∈ l, e'.id ≠ e.id := fun e' he' h => hnd.1 (List.mem_map.mpr ⟨e', he', h⟩)
        obtain ⟨s', h1, h2, h3⟩ := ih (fun e' he' => hsub e' (List.mem_cons_of_mem _ he')) hnd.2
          (fun i => if i = σ e.id then loaded (q.store (σ e.id)) (expS (p.store e.id)) else st i) (by
            intro e' he'
            rw [if_neg (fun h => hne e' he' (hq.inj h))]
            exact hst e' (List.mem_cons_of_mem _ he'))
        refine ⟨s', ?_, ?_, ?_⟩
        · rw [List.map_cons]
          unfold loop
          rw [hstep st e (hsub e (List.mem_cons_self ..)) (hst e (List.mem_cons_self ..))]
          exact h1
        · intro e' he'
          rcases List.mem_cons.mp he' with rfl | he'
          · rw [h3 (σ e'.id) (fun y hy h => hne y hy (hq.inj h))]
            simp only [if_true]
          · exact h2 e' he'
        · intro j hj
          rw [h3 j (fun y hy => hj y (List.mem_cons_of_mem _ hy))]
          rw [if_neg (fun h => hj e (List.mem_cons_self ..) h.symm)]
    exact hgen d (fun _ h => h) hi.nodup q.store fun _ _ => rfl
  obtain ⟨store', hl1, hl2, hl3⟩ := hloop
  refine ⟨store', ?_, ?_, ?_⟩
  · unfold restoreSidecar
    rw [hval]
    simp only []
    rw [if_neg (by rw [hname, hmatch]; simp), hfile, hb]
    simp only []
    have hsize : m.size = b.length := by rw [hm]
    have hmax : m.maximumBytes = maxSum p.store d 0 + allowance (maxSum p.store d 0) := by rw [hm]
    have hraw : m.rawBytes = rawSum p.store d 0 := by rw [hm]
    have hshae : m.sha = x.sha b := by rw [hm]
    rw [if_neg (by
      rintro (h | h | h | h)
      · exact h hsize.symm
      · exact h hmax
      · exact hbound (.inl h)
      · rw [hraw] at h; exact hbound (.inr h)), if_neg (fun h => h hshae.symm), hdec]
    simp only []
    rw [if_neg (by
      have e1 : m.generation = generation := by rw [hm]
      have e2 : m.schema = schemaOf p.store d := by rw [hm]
      have e3 : m.autocast = mode := by rw [hm]
      rw [hpl]
      simp only []
      rintro (h | h | h | h | h | h | h)
      · exact h rfl
      · exact h hq.iteration.symm
      · exact h hq.world.symm
      · exact h hq.rank.symm
      · exact h e1.symm
      · exact h e2.symm
      · exact h e3.symm)]
    have hnames : (pl.models.all (fun e => (d.map (ren σ)).any fun k => decide (k.model = e.1)) &&
        (d.map (ren σ)).all (fun k => pl.models.any fun e => decide (e.1 = k.model))) = true := by
      rw [Bool.and_eq_true, List.all_eq_true, List.all_eq_true, hmodels]
      constructor
      · intro e he
        have := (assemble_names (savedOf p.store) d [] e.1).mp (List.mem_map.mpr ⟨e, he, rfl⟩)
        rcases this with h | h
        · simp at h
        · obtain ⟨e0, h0, h1⟩ := List.mem_map.mp h
          exact List.any_eq_true.mpr ⟨ren σ e0, List.mem_map.mpr ⟨e0, h0, rfl⟩, decide_eq_true h1⟩
      · intro k hk
        obtain ⟨e0, h0, rfl⟩ := hone k hk
        have := (assemble_names (savedOf p.store) d [] e0.model).mpr (.inr (List.mem_map.mpr ⟨e0, h0, rfl⟩))
        obtain ⟨e, he, h1⟩ := List.mem_map.mp this
        exact List.any_eq_true.mpr ⟨e, he, decide_eq_true h1⟩
    rw [if_neg (by rw [hnames]; decide)]
    have hkeys : ((payloadKeys pl.models).all (fun k => (d.map (ren σ)).any fun e => decide ((e.model, e.path) = k)) &&
        (d.map (ren σ)).all (fun e => (payloadKeys pl.models).any fun k => decide (k = (e.model, e.path)))) = true := by
      rw [Bool.and_eq_true, List.all_eq_true, List.all_eq_true, hmodels]
      constructor
      · intro k hk
        rcases (assemble_keys (savedOf p.store) d [] k).mp hk with h | h
        · simp [payloadKeys] at h
        · obtain ⟨e0, h0, h1⟩ := List.mem_map.mp h
          exact List.any_eq_true.mpr ⟨ren σ e0, List.mem_map.mpr ⟨e0, h0, rfl⟩, decide_eq_true h1⟩
      · intro e he
        obtain ⟨e0, h0, rfl⟩ := hone e he
        exact List.any_eq_true.mpr ⟨key e0, (assemble_keys (savedOf p.store) d [] (key e0)).mpr (.inr (List.mem_map.mpr ⟨e0, h0, rfl⟩)),
          decide_eq_true rfl⟩
    rw [if_neg (by rw [hkeys]; decide)]
    exact hl1
  · intro mn path i hat
    obtain ⟨e, he, hei⟩ := (hi.ids i).mp ⟨_, (sites_iff p mn path i).mpr hat, rfl⟩
    subst hei
    rw [hl2 e he]
    obtain ⟨_, hle, hsum, hbok, hfin⟩ := exportState_ok x.finite (p.store e.id) _ (hg e he).exp
    by_cases hin : (p.store e.id).inited = true
    · have : loaded (q.store (σ e.id)) (expS (p.store e.id)) = { q.store (σ e.id) with initedPy := none } := by
        unfold loaded; exact if_pos hin
      rw [this]
      exact ⟨rfl, rfl, fun _ => ⟨rfl, rfl⟩, fun h => by rw [hin] at h; simp at h⟩
    · have hpend : pend (p.store e.id) = (p.store e.id).batches := by unfold pend; rw [if_neg hin]
      have hcnt : cnt (p.store e.id) = (p.store e.id).count := by unfold cnt; rw [if_neg hin]
      rw [hpend] at hsum hbok hfin
      rw [hcnt] at hsum hle
      have hl : loaded (q.store (σ e.id)) (expS (p.store e.id)) = { q.store (σ e.id) with
          initedPy := none, batches := if (p.store e.id).count = 0 then [] else
            [⟨pendingDtype (p.store e.id).desc (p.store e.id).batches, [(p.store e.id).count, (p.store e.id).desc.dimFeature], samples (p.store e.id)⟩],
          count := (p.store e.id).count, checked := false } := by
        unfold loaded
        rw [if_neg (by exact hin)]
        unfold expS samples
        rw [hpend, hcnt]
      rw [hl]
      refine ⟨rfl, rfl, fun h => absurd h hin, fun _ => ⟨rfl, ?_, ?_⟩⟩
      · by_cases hz : (p.store e.id).count = 0
        · unfold samples
          rw [if_pos hz, zero_samples (p.store e.id).batches (hten mn path e.id hat) _ _ hbok (hsum.trans hz)]
          rfl
        · show List.flatMap Tensor.data _ = _
          rw [if_neg hz]
          simp
      · intro b1 hb1 b2 hb2
        by_cases hz : (p.store e.id).count = 0
        · simp only [hz, if_true] at hb1; simp at hb1
        · simp only [hz, if_false, List.mem_singleton] at hb1
          have := List.all_eq_true.mp hbok b2 hb2
          unfold batchOk at this
          simp only [Bool.and_eq_true, decide_eq_true_eq] at this
          rw [hb1, this.2]
  · intro j hj
    refine hl3 j ?_
    intro e he
    exact hj e.model e.path e.id ((sites_iff p _ _ _).mp (key_site p d hi e he))

/-- **C101 (only what fits).** Whatever files and manifest are present: if the restore accepts, then the manifest names this iteration, rank
and generation; the file has the recorded size and hash; what it decodes to was written for this iteration, rank, world size, generation
and precision by a run with the same quantizers, paths, sharing, configuration and flags; every quantizer now holds exactly the finite
samples stored for it (initialised ones keep theirs, and nothing was stored for them); and no other module is touched. -/
theorem C101_checked (x : Ext V) (q : Proc V) (dir : Dir) (m : Manifest) (store' : Nat → Vq V) (h : restoreSidecar x q dir m = .ok store') :
    (∃ it rk, matchSidecar m.basename = some (it, m.generation, rk) ∧ toInt it = q.iteration ∧ toInt rk = q.rank) ∧
    ∃ b pl d, dir m.basename = some b ∧ b.length = m.size ∧ x.sha b = m.sha ∧ x.decode b = some pl ∧
      pl.iteration = q.iteration ∧ pl.rank = q.rank ∧ pl.world = q.world ∧ pl.generation = m.generation ∧
      pl.autocast = q.precision.getD "no" ∧ discover q = .ok d ∧ pl.schema = schemaOf q.store d ∧ m.schema = pl.schema ∧
      (∀ e ∈ d, ∃ s, savedAt pl.models (e.model, e.path) = some s ∧ s.aliases = e.aliases ∧ s.state.desc = (q.store e.id).desc ∧
        s.state.inited = (q.store e.id).inited ∧ s.state.count ≤ (q.store e.id).desc.target ∧
        s.state.samples.shape = [s.state.count, (q.store e.id).desc.dimFeature] ∧ (∀ v ∈ s.state.samples.data, x.finite v = true) ∧
        (s.state.inited = true → s.state.count = 0 ∧ store' e.id = { q.store e.id with initedPy := none }) ∧
        (s.state.inited = false → (store' e.id).count = s.state.count ∧
          (store' e.id).batches = if s.state.count = 0 then [] else [s.state.samples])) ∧
      ∀ j, (∀ mn path, ¬ At q mn path j) → store' j = q.store j := by
  unfold restoreSidecar at h
  cases hv : validate q m with
  | error e => rw [hv] at h; simp at h
  | ok t =>
    obtain ⟨d, stats, emax⟩ := t
    rw [hv] at h
    simp only [] at h
    -- the manifest
    unfold validate at hv
    by_cases v1 : m.version ≠ 1
    · rw [if_pos v1] at hv; simp at hv
    rw [if_neg v1] at hv
    cases v2 : autocastMode q with
    | error e => rw [v2] at hv; simp at hv
    | ok mode =>
      rw [v2] at hv
      simp only [] at hv
      by_cases v3 : m.autocast ≠ mode
      · rw [if_pos v3] at hv; simp at hv
      rw [if_neg v3] at hv
      by_cases v4 : groupsAre (matchSidecar m.basename) q.iteration m.generation q.rank = false ∨ m.iteration ≠ q.iteration ∨ m.rank ≠ q.rank ∨
          hexOk 32 m.generation = false ∨ hexOk 64 m.sha = false
      · rw [if_pos v4] at hv; simp at hv
      rw [if_neg v4] at hv
      cases v5 : discover q with
      | error e => rw [v5] at hv; simp at hv
      | ok d' =>
        rw [v5] at hv
        simp only [] at hv
        by_cases v6 : schemaOf q.store d' ≠ m.schema
        · rw [if_pos v6] at hv; simp at hv
        rw [if_neg v6] at hv
        cases v7 : loop (checkStat (descByKey (schemaOf q.store d')) mode) ⟨[], 0, 0, false⟩ m.modules with
        | error e => rw [v7] at hv; simp at hv
        | ok a =>
          rw [v7] at hv
          simp only [] at hv
          have hdd : d' = d := by
            split_ifs at hv
            simp only [Except.ok.injEq, Prod.mk.injEq] at hv
            exact hv.1
          subst hdd
          have hmode : mode = q.precision.getD "no" := by
            unfold autocastMode at v2
            split_ifs at v2
            simp only [Except.ok.injEq] at v2
            exact v2.symm
          have hname : ∃ it rk, matchSidecar m.basename = some (it, m.generation, rk) ∧ toInt it = q.iteration ∧ toInt rk = q.rank := by
            rw [not_or] at v4
            have := v4.1
            cases hm : matchSidecar m.basename with
            | none => rw [hm] at this; exact absurd rfl this
            | some t =>
              obtain ⟨i, g, r⟩ := t
              rw [hm] at this
              simp only [groupsAre, Bool.and_eq_false_iff, decide_eq_false_iff_not, not_or, not_not] at this
              exact ⟨i, r, by rw [this.2], this.1.1, this.1.2⟩
          refine ⟨hname, ?_⟩
          -- the file
          by_cases f0 : (matchSidecar m.basename).isNone = true
          · rw [if_pos f0] at h; simp at h
          rw [if_neg f0] at h
          cases f1 : dir m.basename with
          | none => rw [f1] at h; simp at h
          | some b =>
            rw [f1] at h
            simp only [] at h
            by_cases f2 : b.length ≠ m.size ∨ m.maximumBytes ≠ emax ∨ emax < b.length ∨ m.rawBytes + allowance m.rawBytes < b.length
            · rw [if_pos f2] at h; simp at h
            rw [if_neg f2] at h
            by_cases f3 : x.sha b ≠ m.sha
            · rw [if_pos f3] at h; simp at h
            rw [if_neg f3] at h
            cases f4 : x.decode b with
            | none => rw [f4] at h; simp at h
            | some pl =>
              rw [f4] at h
              simp only [] at h
              by_cases f5 : pl.version ≠ 1 ∨ pl.iteration ≠ q.iteration ∨ pl.world ≠ q.world ∨ pl.rank ≠ q.rank ∨ pl.generation ≠ m.generation ∨
                  pl.schema ≠ m.schema ∨ pl.autocast ≠ m.autocast
              · rw [if_pos f5] at h; simp at h
              rw [if_neg f5] at h
              simp only [not_or, not_not] at f5 f2
              obtain ⟨_, g1, g2, g3, g4, g5, g6⟩ := f5
              have hfin : loop (restoreOne x.finite pl stats) q.store d' = .ok store' := by
                split_ifs at h
                exact h
              have hi := discover_inv q d' v5
              obtain ⟨r1, r2⟩ := restore_loop_inv x.finite pl stats d' hi.nodup q.store store' hfin
              refine ⟨b, pl, d', rfl, f2.1, not_not.mp f3, f4, g1, g3, g2, g4, ?_, rfl, ?_, g5.symm, ?_, ?_⟩
              · rw [g6, not_not.mp v3, hmode]
              · rw [g5]; exact (not_not.mp v6).symm
              · intro e he
                obtain ⟨s, s1, s2, s3, _⟩ := r1 e he
                obtain ⟨t1, t2, t3, t4, t5, t6, t7, t8⟩ := loadState_ok x.finite _ _ _ s3
                refine ⟨s, s1, s2, t2, t3, t4, t5, List.all_eq_true.mp t7, ?_, ?_⟩
                · intro hin
                  refine ⟨t8 hin, ?_⟩
                  rw [t1]; unfold loaded; rw [if_pos hin]
                · intro hin
                  rw [t1]
                  unfold loaded
                  rw [if_neg (by rw [hin]; decide)]
                  exact ⟨rfl, rfl⟩
              · intro j hj
                refine r2 j ?_
                rintro e he rfl
                exact hj e.model e.path ((sites_iff q _ _ _).mp (key_site q d' hi e he))

/-! ### Capturing succeeds -/

/-- The dtype of the inputs a quantizer sees under a precision mode. -/
def inputDtype (mode : String) (d : Desc) : String :=
  if d.toFp32 then "torch.float32" else if mode = "bf16" then "torch.bfloat16" else if mode = "fp16" then "torch.float16" else d.paramDtype

/-- A module in a state the training loop produces: initialised, or with at most the target number of finite input rows pending, in
non-empty batches of the input dtype. -/
def Live (finite : V → Bool) (mode : String) (v : Vq V) : Prop :=
  v.desc.paramDtype ∈ ["torch.float16", "torch.bfloat16", "torch.float32", "torch.float64"] ∧
  (v.inited = true ∨ (v.count ≤ v.desc.target ∧ (v.batches.map Tensor.len).sum = v.count ∧
    ∀ b ∈ v.batches, (∃ n, 0 < n ∧ b.shape = [n, v.desc.dimFeature]) ∧ b.dtype = inputDtype mode v.desc ∧ ∀ y ∈ b.data, finite y = true))

theorem expectedDtype_eq (mode : String) (hm : mode ∈ ["no", "bf16", "fp16"]) (d : Desc) (k : Nat) :
    expectedDtype d k mode = .ok (if d.toFp32 then "torch.float32" else if k = 0 then d.paramDtype else inputDtype mode d) := by
  have hne : ¬ (mode ≠ "no" ∧ mode ≠ "bf16" ∧ mode ≠ "fp16") := by
    rintro ⟨h1, h2, h3⟩
    simp only [List.mem_cons, List.not_mem_nil, or_false] at hm
    rcases hm with h | h | h
    · exact h1 h
    · exact h2 h
    · exact h3 h
  unfold expectedDtype
  rw [if_neg hne]
  by_cases h32 : d.toFp32 = true
  · rw [if_pos h32, if_pos h32]
  · rw [if_neg h32, if_neg h32]
    unfold inputDtype
    rw [if_neg h32]
    by_cases hk : k = 0
    · rw [if_pos (.inl hk), if_pos hk]
    · rw [if_neg hk]
      simp only [List.mem_cons, List.not_mem_nil, or_false] at hm
      rcases hm with rfl | rfl | rfl
      · rw [if_pos (.inr rfl), if_neg (by decide), if_neg (by decide)]
      · rw [if_neg (by rintro (h | h); exact hk h; exact absurd h (by decide)), if_pos rfl, if_pos rfl]
      · rw [if_neg (by rintro (h | h); exact hk h; exact absurd h (by decide)), if_neg (by decide), if_neg (by decide), if_pos rfl]

theorem dtypeBytes_param (d : String) (h : d ∈ ["torch.float16", "torch.bfloat16", "torch.float32", "torch.float64"]) : (dtypeBytes d).isSome = true := by
  simp only [List.mem_cons, List.not_mem_nil, or_false] at h
  rcases h with rfl | rfl | rfl | rfl <;> decide

theorem live_good (finite : V → Bool) (mode : String) (hm : mode ∈ ["no", "bf16", "fp16"]) (v : Vq V) (h : Live finite mode v) : Good finite mode v := by
  obtain ⟨hp, hs⟩ := h
  -- the facts about what is pending
  have key : cnt v ≤ v.desc.target ∧ ((pend v).map Tensor.len).sum = cnt v ∧ ∀ b ∈ pend v, (∃ n, 0 < n ∧ b.shape = [n, v.desc.dimFeature]) ∧
      b.dtype = inputDtype mode v.desc ∧ ∀ y ∈ b.data, finite y = true := by
    unfold cnt pend
    by_cases hi : v.inited = true
    · rw [if_pos hi, if_pos hi]; exact ⟨Nat.zero_le _, rfl, by simp⟩
    · rw [if_neg hi, if_neg hi]
      rcases hs with hs | hs
      · exact absurd hs hi
      · exact hs
  obtain ⟨k1, k2, k3⟩ := key
  have hdt : pendingDtype v.desc (pend v) = if v.desc.toFp32 then "torch.float32" else if cnt v = 0 then v.desc.paramDtype else inputDtype mode v.desc := by
    cases hb : pend v with
    | nil =>
      have : cnt v = 0 := by rw [← k2, hb]; rfl
      rw [this]
      unfold pendingDtype
      simp only [if_true]
    | cons b l =>
      have hbm : b ∈ pend v := by rw [hb]; exact List.mem_cons_self ..
      obtain ⟨⟨n, hn, hsh⟩, hd, _⟩ := k3 b hbm
      have : cnt v ≠ 0 := by
        rw [← k2, hb, List.map_cons, List.sum_cons]
        unfold Tensor.len
        rw [hsh]
        simp only [List.headD_cons]
        omega
      unfold pendingDtype
      simp only []
      rw [if_neg this, hd]
      unfold inputDtype
      by_cases h32 : v.desc.toFp32 = true
      · rw [if_pos h32, if_pos h32]
      · rw [if_neg h32, if_neg h32]
  have hin : ∀ b ∈ pend v, b.dtype = pendingDtype v.desc (pend v) := by
    intro b hb
    obtain ⟨⟨n, hn, hsh⟩, hd, _⟩ := k3 b hb
    have hc : cnt v ≠ 0 := by
      have := List.single_le_sum (l := (pend v).map Tensor.len) (by simp) b.len (List.mem_map.mpr ⟨b, hb, rfl⟩)
      rw [k2] at this
      unfold Tensor.len at this
      rw [hsh] at this
      simp only [List.headD_cons] at this
      omega
    rw [hdt, if_neg hc, hd]
    unfold inputDtype
    by_cases h32 : v.desc.toFp32 = true
    · rw [if_pos h32, if_pos h32]
    · rw [if_neg h32, if_neg h32]
  refine ⟨?_, ?_, ?_⟩
  · unfold exportState
    simp only []
    show (if v.desc.target < cnt v then _ else if ((pend v).map Tensor.len).sum ≠ cnt v then _ else
      if (pend v).all (batchOk v.desc (pendingDtype v.desc (pend v))) = false then _ else
      if ((pend v).flatMap Tensor.data).all finite = false then _ else _) = _
    rw [if_neg (not_lt.mpr k1), if_neg (fun h => h k2), if_neg, if_neg]
    · rfl
    · have : ((pend v).flatMap Tensor.data).all finite = true := by
        rw [List.all_eq_true]
        intro y hy
        obtain ⟨b, hb, hyb⟩ := List.mem_flatMap.mp hy
        exact (k3 b hb).2.2 y hyb
      rw [this]; decide
    · have : (pend v).all (batchOk v.desc (pendingDtype v.desc (pend v))) = true := by
        rw [List.all_eq_true]
        intro b hb
        obtain ⟨⟨n, hn, hsh⟩, _⟩ := k3 b hb
        unfold batchOk
        rw [hsh, hin b hb]
        simp
      rw [this]; decide
  · rw [expectedDtype_eq mode hm, hdt]
  · rw [hdt]
    by_cases h32 : v.desc.toFp32 = true
    · rw [if_pos h32]; decide
    · rw [if_neg h32]
      by_cases hc : cnt v = 0
      · rw [if_pos hc]; exact dtypeBytes_param _ hp
      · rw [if_neg hc]
        unfold inputDtype
        rw [if_neg h32]
        split_ifs
        · decide
        · decide
        · exact dtypeBytes_param _ hp

theorem capture_loop_ok (finite : V → Bool) (store : Nat → Vq V) (mode : String) (d : List Entry) (a : Acc V)
    (h : ∀ e ∈ d, Good finite mode (store e.id)) : ∃ a', loop (captureOne finite store mode) a d = .ok a' := by
  induction d generalizing a with
  | nil => exact ⟨a, rfl⟩
  | cons e d ih =>
    have hg := h e (List.mem_cons_self ..)
    unfold loop
    have : ∃ b, captureOne finite store mode a e = .ok b := by
      unfold captureOne
      rw [hg.exp]
      simp only []
      have hdt : expectedDtype (expS (store e.id)).desc (expS (store e.id)).count mode = .ok (expS (store e.id)).dtype := hg.dt
      rw [hdt]
      simp only []
      rw [if_neg (by
        rintro (h | h)
        · have := hg.some
          rw [show (expS (store e.id)).dtype = pendingDtype (store e.id).desc (pend (store e.id)) from rfl, this] at h
          simp at h
        · exact h rfl)]
      exact ⟨_, rfl⟩
    obtain ⟨b, hb⟩ := this
    rw [hb]
    exact ih b fun e' he' => h e' (List.mem_cons_of_mem _ he')

/-- **C101 (capturing succeeds).** With any supported precision and every quantizer in a state the training loop produces — in
particular a completely filled pending buffer — the capture succeeds. -/
theorem C101_capture_succeeds (finite : V → Bool) (p : Proc V) (hnames : ∀ m ∈ p.models, m.1 ≠ "")
    (hmode : p.precision.getD "no" ∈ ["no", "bf16", "fp16"]) (hlive : ∀ m path i, At p m path i → Live finite (p.precision.getD "no") (p.store i)) :
    ∃ c, capture finite p = .ok c := by
  obtain ⟨d, hd⟩ : ∃ d, discover p = .ok d := by
    unfold discover
    rw [if_neg (by
      intro h
      obtain ⟨m, hm, h1⟩ := List.any_eq_true.mp h
      exact hnames m hm (of_decide_eq_true h1))]
    exact ⟨_, rfl⟩
  have hi := discover_inv p d hd
  have hm : autocastMode p = .ok (p.precision.getD "no") := by
    unfold autocastMode
    rw [if_neg]
    intro h
    rw [h] at hmode
    exact absurd hmode (by decide)
  obtain ⟨a, ha⟩ := capture_loop_ok finite p.store (p.precision.getD "no") d ⟨[], 0, 0, false, []⟩ (by
    intro e he
    exact live_good finite _ hmode _ (hlive _ _ _ ((sites_iff p _ _ _).mp (key_site p d hi e he))))
  unfold capture
  rw [hd]
  simp only []
  rw [hm]
  simp only []
  rw [ha]
  exact ⟨_, rfl⟩

end Verif.Sidecar
