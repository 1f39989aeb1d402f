import Verif.Sidecar.Retained
import Verif.Sidecar.Props101
import Mathlib.Data.List.Forall2

/-!
# C108: a retained checkpoint's quantiser manifest is accepted exactly when it is consistent and its sidecar is intact
-/
namespace Verif.Sidecar
open Verif.Ckpt (Name toInt)

variable {V : Type}

/-! ### Specification -/

/-- The four floating-point types quantisers may have. -/
def floats : List String := ["torch.float16", "torch.bfloat16", "torch.float32", "torch.float64"]

/-- Bytes of an entry of these types. -/
def width (d : String) : Nat := if d = "torch.float64" then 8 else if d = "torch.float32" then 4 else 2

/-- The type samples of a quantiser have: always FP32 for a converting one, else the parameters' type when none are pending or no
mixed precision is used, else the type of the precision. -/
def sampleType (d : Desc) (count : Nat) (mode : String) : String :=
  if d.toFp32 = true then "torch.float32"
  else if 0 < count ∧ mode = "fp16" then "torch.float16"
  else if 0 < count ∧ mode = "bf16" then "torch.bfloat16"
  else d.paramDtype

/-- What a file may be larger than its samples: one percent, rounded up, but at least one mebibyte. -/
def slack (n : Nat) : Nat := if n ≤ 104857600 then 1048576 else if n % 100 = 0 then n / 100 else n / 100 + 1

/-- The description of a quantiser of model `model`. -/
structure ModOk (model : String) (x : ModSchema) : Prop where
  /-- it is stored under the first of its names, -/
  first : x.aliases.head? = some (model, x.path)
  /-- all of which are different, with non-empty model names. -/
  distinct : x.aliases.Nodup
  named : ∀ a ∈ x.aliases, a.1 ≠ ""
  dtype : x.desc.paramDtype ∈ floats

structure SchemaOk (s : Schema) : Prop where
  names : (s.map Prod.fst).Nodup
  named : ∀ m ∈ s, m.1 ≠ ""
  paths : ∀ m ∈ s, (m.2.map ModSchema.path).Nodup
  mods : ∀ m ∈ s, ∀ x ∈ m.2, ModOk m.1 x

/-- The schema has the quantiser `x` for model and path `k`. -/
def Has (s : Schema) (k : String × String) (x : ModSchema) : Prop := ∃ l, (k.1, l) ∈ s ∧ x ∈ l ∧ x.path = k.2

/-- The statistics of a quantiser are possible ones. -/
structure Fits (mode : String) (x : ModSchema) (st : Stat) : Prop where
  known : mode = "no" ∨ mode = "bf16" ∨ mode = "fp16"
  count : st.count ≤ x.desc.target
  inited : x.inited = true → st.count = 0
  dtype : st.dtype = sampleType x.desc st.count mode
  bytes : st.rawBytes = st.count * x.desc.dimFeature * width st.dtype

/-- Bytes of a quantiser that is full. -/
def fullBytes (st : Stat) (x : ModSchema) : Nat := x.desc.target * x.desc.dimFeature * width st.dtype

/-- The manifest agrees with itself; `xs` are the descriptions its statistics belong to. -/
structure Consistent (m : Manifest) (xs : List ModSchema) : Prop where
  version : m.version = 1
  autocast : m.autocast ≠ ""
  schema : SchemaOk m.schema
  /-- the statistics are about the quantisers of the schema, each once, and possible ones, -/
  stats : List.Forall₂ (fun st x => Has m.schema (st.model, st.path) x ∧ Fits m.autocast x st) m.modules xs
  once : (m.modules.map fun st => (st.model, st.path)).Nodup
  all : ∀ k x, Has m.schema k x → ∃ st ∈ m.modules, (st.model, st.path) = k
  /-- and the totals are theirs. -/
  partly : m.hasPartial = true ↔ ∃ st ∈ m.modules, 0 < st.count
  raw : m.rawBytes = (m.modules.map Stat.rawBytes).sum
  maximum : m.maximumBytes = (List.zipWith fullBytes m.modules xs).sum + slack (List.zipWith fullBytes m.modules xs).sum
  size : m.size ≤ m.maximumBytes ∧ m.size ≤ m.rawBytes + slack m.rawBytes

/-- The manifest is of this iteration and rank, and its file name says so. -/
structure Identity (m : Manifest) (iteration rank : Nat) : Prop where
  iter : m.iteration = iteration
  rnk : m.rank = rank
  name : ∃ it r, IsSidecar m.basename it m.generation r ∧ toInt it = iteration ∧ toInt r = rank

/-- The file is there, of the size and hash recorded. -/
def Intact (x : Ext V) (dir : Dir) (m : Manifest) : Prop :=
  ∃ b, dir m.basename = some b ∧ b.length = m.size ∧ x.sha b = m.sha ∧
    m.sha.length = 64 ∧ ∀ c ∈ m.sha, c.isDigit = true ∨ ('a' ≤ c ∧ c ≤ 'f')

/-! ### Auxiliary -/

theorem slack_eq (n : Nat) : allowance n = slack n := by
  unfold allowance slack
  split_ifs <;> omega

theorem dtypeBytes_iff (d : String) : (dtypeBytes d).isSome = true ↔ d ∈ floats := by
  unfold dtypeBytes floats
  by_cases h1 : d = "torch.float16"
  · rw [if_pos h1]; simp [h1]
  rw [if_neg h1]
  by_cases h2 : d = "torch.bfloat16"
  · rw [if_pos h2]; simp [h2]
  rw [if_neg h2]
  by_cases h3 : d = "torch.float32"
  · rw [if_pos h3]; simp [h3]
  rw [if_neg h3]
  by_cases h4 : d = "torch.float64"
  · rw [if_pos h4]; simp [h4]
  rw [if_neg h4]
  simp [h1, h2, h3, h4]

theorem dtypeBytes_width (d : String) (h : d ∈ floats) : dtypeBytes d = some (width d) := by
  unfold floats at h
  simp only [List.mem_cons, List.not_mem_nil, or_false] at h
  rcases h with rfl | rfl | rfl | rfl <;> decide

theorem dedup_length {α : Type} [DecidableEq α] (l : List α) : l.dedup.length = l.length ↔ l.Nodup := by
  constructor
  · intro h
    rw [← (List.dedup_sublist l).eq_of_length h]
    exact List.nodup_dedup l
  · intro h
    rw [List.dedup_eq_self.mpr h]

theorem aliasesOk_iff (model : String) (x : ModSchema) :
    aliasesOk model x = true ↔ x.aliases.head? = some (model, x.path) ∧ x.aliases.Nodup ∧ ∀ a ∈ x.aliases, a.1 ≠ "" := by
  unfold aliasesOk
  rw [Bool.and_eq_true, Bool.and_eq_true, decide_eq_true_iff, decide_eq_true_iff, List.all_eq_true, dedup_length]
  simp only [decide_eq_true_eq]
  constructor
  · rintro ⟨⟨h1, h2⟩, h3⟩; exact ⟨h1, h3, h2⟩
  · rintro ⟨h1, h3, h2⟩; exact ⟨⟨h1, h2⟩, h3⟩

theorem any_key {β : Type} (a : List ((String × String) × β)) (k : String × String) :
    (a.any fun e => decide (e.1 = k)) = true ↔ ∃ e ∈ a, e.1 = k := by
  rw [List.any_eq_true]
  simp only [decide_eq_true_eq]

theorem schemaModule_iff (model : String) (a r : List ((String × String) × ModSchema)) (x : ModSchema) :
    schemaModule model a x = .ok r ↔ ModOk model x ∧ (∀ e ∈ a, e.1 ≠ (model, x.path)) ∧ r = a ++ [((model, x.path), x)] := by
  unfold schemaModule
  by_cases h1 : aliasesOk model x = false
  · rw [if_pos h1]
    constructor
    · intro h; simp at h
    · rintro ⟨h, _⟩
      rw [(aliasesOk_iff model x).mpr ⟨h.first, h.distinct, h.named⟩] at h1
      simp at h1
  rw [if_neg h1]
  have h1' := (aliasesOk_iff model x).mp (by simpa using h1)
  by_cases h2 : (dtypeBytes x.desc.paramDtype).isSome = false
  · rw [if_pos h2]
    constructor
    · intro h; simp at h
    · rintro ⟨h, _⟩
      rw [(dtypeBytes_iff _).mpr h.dtype] at h2
      simp at h2
  rw [if_neg h2]
  have h2' := (dtypeBytes_iff x.desc.paramDtype).mp (Bool.eq_true_of_not_eq_false h2)
  by_cases h3 : (a.any fun e => decide (e.1 = (model, x.path))) = true
  · rw [if_pos h3]
    constructor
    · intro h; simp at h
    · rintro ⟨_, h, _⟩
      obtain ⟨e, he, hk⟩ := (any_key a _).mp h3
      exact absurd hk (h e he)
  rw [if_neg h3]
  simp only [Except.ok.injEq]
  constructor
  · rintro rfl
    exact ⟨⟨h1'.1, h1'.2.1, h1'.2.2, h2'⟩, fun e he hk => h3 ((any_key a _).mpr ⟨e, he, hk⟩), rfl⟩
  · rintro ⟨_, _, rfl⟩; rfl

theorem schemaModules_iff (model : String) (l : List ModSchema) (a r : List ((String × String) × ModSchema)) :
    loop (schemaModule model) a l = .ok r ↔ (∀ x ∈ l, ModOk model x) ∧ (l.map ModSchema.path).Nodup ∧
      (∀ x ∈ l, ∀ e ∈ a, e.1 ≠ (model, x.path)) ∧ r = a ++ l.map fun x => ((model, x.path), x) := by
  induction l generalizing a with
  | nil => simp [loop, eq_comm]
  | cons x l ih =>
    unfold loop
    cases h : schemaModule model a x with
    | error e =>
      simp only []
      constructor
      · intro h; simp at h
      · rintro ⟨h1, _, h2, _⟩
        have := (schemaModule_iff model a _ x).mpr ⟨h1 x (List.mem_cons_self ..), h2 x (List.mem_cons_self ..), rfl⟩
        rw [h] at this
        simp at this
    | ok b =>
      simp only []
      obtain ⟨h1, h2, hb⟩ := (schemaModule_iff model a b x).mp h
      rw [ih, hb, List.map_cons, List.nodup_cons]
      constructor
      · rintro ⟨g1, g2, g3, g4⟩
        refine ⟨?_, ⟨?_, g2⟩, ?_, ?_⟩
        · intro y hy
          rcases List.mem_cons.mp hy with rfl | hy
          · exact h1
          · exact g1 y hy
        · intro hm
          obtain ⟨y, hy, hp⟩ := List.mem_map.mp hm
          exact g3 y hy ((model, x.path), x) (by simp) (by simp [hp])
        · intro y hy e he
          rcases List.mem_cons.mp hy with rfl | hy
          · exact h2 e he
          · exact g3 y hy e (List.mem_append_left _ he)
        · rw [g4, List.map_cons, List.append_assoc]; rfl
      · rintro ⟨g1, ⟨g2, g3⟩, g4, g5⟩
        refine ⟨fun y hy => g1 y (List.mem_cons_of_mem _ hy), g3, ?_, ?_⟩
        · intro y hy e he
          rcases List.mem_append.mp he with he | he
          · exact g4 y (List.mem_cons_of_mem _ hy) e he
          · rw [List.mem_singleton] at he
            subst he
            intro hk
            simp only [Prod.mk.injEq, true_and] at hk
            exact g2 (List.mem_map.mpr ⟨y, hy, hk.symm⟩)
        · rw [g5, List.map_cons, List.append_assoc]; rfl

theorem schemaModel_loop (s : Schema) (ns : List String) (a : List ((String × String) × ModSchema)) (hinv : ∀ e ∈ a, e.1.1 ∈ ns)
    (r : List String × List ((String × String) × ModSchema)) :
    loop schemaModel (ns, a) s = .ok r ↔ SchemaOk s ∧ (∀ m ∈ s, m.1 ∉ ns) ∧ r = (ns ++ s.map Prod.fst, a ++ descByKey s) := by
  induction s generalizing ns a with
  | nil =>
    simp only [loop, Except.ok.injEq, descByKey, List.flatMap_nil, List.append_nil, List.map_nil]
    constructor
    · intro h
      exact ⟨⟨List.nodup_nil, by simp, by simp, by simp⟩, by simp, h.symm⟩
    · rintro ⟨_, _, h⟩; exact h.symm
  | cons m s ih =>
    have hany : (ns.any fun n => decide (n = m.1)) = true ↔ m.1 ∈ ns := by
      rw [List.any_eq_true]
      simp only [decide_eq_true_eq]
      constructor
      · rintro ⟨n, hn, rfl⟩; exact hn
      · intro h; exact ⟨_, h, rfl⟩
    unfold loop
    rw [show schemaModel (ns, a) m = if m.1 = "" ∨ (ns.any fun n => decide (n = m.1)) = true then
        .error "retained state has malformed VQ runtime schema"
      else match loop (schemaModule m.1) a m.2 with
        | .error e => .error e
        | .ok d => .ok (ns ++ [m.1], d) from rfl]
    by_cases h1 : m.1 = "" ∨ (ns.any fun n => decide (n = m.1)) = true
    · rw [if_pos h1]
      constructor
      · intro h; simp at h
      · rintro ⟨h, h', _⟩
        rcases h1 with h1 | h1
        · exact absurd h1 (h.named m (List.mem_cons_self ..))
        · exact absurd (hany.mp h1) (h' m (List.mem_cons_self ..))
    rw [if_neg h1]
    rw [not_or, hany] at h1
    cases hl : loop (schemaModule m.1) a m.2 with
    | error e =>
      simp only []
      constructor
      · intro h; simp at h
      · rintro ⟨h, _⟩
        have := (schemaModules_iff m.1 m.2 a _).mpr ⟨h.mods m (List.mem_cons_self ..), h.paths m (List.mem_cons_self ..),
          fun x _ e he hk => h1.2 (by have := hinv e he; rw [hk] at this; exact this), rfl⟩
        rw [hl] at this
        simp at this
    | ok d =>
      simp only []
      obtain ⟨g1, g2, _, hd⟩ := (schemaModules_iff m.1 m.2 a d).mp hl
      have hinv' : ∀ e ∈ d, e.1.1 ∈ ns ++ [m.1] := by
        intro e he
        rw [hd] at he
        rcases List.mem_append.mp he with he | he
        · exact List.mem_append_left _ (hinv e he)
        · obtain ⟨x, _, rfl⟩ := List.mem_map.mp he
          simp
      rw [ih _ _ hinv', hd]
      constructor
      · rintro ⟨hs, hn, hr⟩
        refine ⟨⟨?_, ?_, ?_, ?_⟩, ?_, ?_⟩
        · rw [List.map_cons, List.nodup_cons]
          refine ⟨?_, hs.names⟩
          intro hm
          obtain ⟨m', hm', he⟩ := List.mem_map.mp hm
          exact hn m' hm' (by simp [he])
        · intro m' hm'
          rcases List.mem_cons.mp hm' with rfl | hm'
          · exact h1.1
          · exact hs.named m' hm'
        · intro m' hm'
          rcases List.mem_cons.mp hm' with rfl | hm'
          · exact g2
          · exact hs.paths m' hm'
        · intro m' hm'
          rcases List.mem_cons.mp hm' with rfl | hm'
          · exact g1
          · exact hs.mods m' hm'
        · intro m' hm'
          rcases List.mem_cons.mp hm' with rfl | hm'
          · exact h1.2
          · exact fun h => hn m' hm' (List.mem_append_left _ h)
        · rw [hr]
          simp [descByKey]
      · rintro ⟨hs, hn, hr⟩
        refine ⟨⟨?_, ?_, ?_, ?_⟩, ?_, ?_⟩
        · have := hs.names
          rw [List.map_cons, List.nodup_cons] at this
          exact this.2
        · exact fun m' hm' => hs.named m' (List.mem_cons_of_mem _ hm')
        · exact fun m' hm' => hs.paths m' (List.mem_cons_of_mem _ hm')
        · exact fun m' hm' => hs.mods m' (List.mem_cons_of_mem _ hm')
        · intro m' hm' h
          rcases List.mem_append.mp h with h | h
          · exact hn m' (List.mem_cons_of_mem _ hm') h
          · rw [List.mem_singleton] at h
            have := hs.names
            rw [List.map_cons, List.nodup_cons] at this
            exact this.1 (List.mem_map.mpr ⟨m', hm', h⟩)
        · rw [hr]
          simp [descByKey]

theorem desc_has (s : Schema) (k : String × String) (x : ModSchema) : (k, x) ∈ descByKey s ↔ Has s k x := by
  unfold descByKey Has
  rw [List.mem_flatMap]
  constructor
  · rintro ⟨m, hm, h⟩
    obtain ⟨y, hy, heq⟩ := List.mem_map.mp h
    simp only [Prod.mk.injEq] at heq
    obtain ⟨rfl, rfl⟩ := heq
    exact ⟨m.2, hm, hy, rfl⟩
  · rintro ⟨l, hl, hx, hp⟩
    exact ⟨(k.1, l), hl, List.mem_map.mpr ⟨x, hx, by rw [hp]⟩⟩

theorem has_unique (s : Schema) (h : SchemaOk s) (k : String × String) (x y : ModSchema) (hx : Has s k x) (hy : Has s k y) : x = y := by
  obtain ⟨l, hl, hxl, hxp⟩ := hx
  obtain ⟨l', hl', hyl, hyp⟩ := hy
  have := List.inj_on_of_nodup_map h.names hl hl' rfl
  simp only [Prod.mk.injEq, true_and] at this
  subst this
  exact List.inj_on_of_nodup_map (h.paths _ hl) hxl hyl (hxp.trans hyp.symm)

theorem find_has (s : Schema) (h : SchemaOk s) (k : String × String) (x : ModSchema) : findKey (descByKey s) k = some x ↔ Has s k x := by
  constructor
  · intro hf
    exact (desc_has s k x).mp (findKey_mem _ _ _ hf)
  · intro hx
    exact findKey_eq _ _ _ ((desc_has s k x).mpr hx) fun y hy => has_unique s h k y x ((desc_has s k y).mp hy) hx

theorem expected_iff (d : Desc) (k : Nat) (mode want : String) :
    expectedDtype d k mode = .ok want ↔ (mode = "no" ∨ mode = "bf16" ∨ mode = "fp16") ∧ want = sampleType d k mode := by
  unfold expectedDtype sampleType
  by_cases h1 : mode ≠ "no" ∧ mode ≠ "bf16" ∧ mode ≠ "fp16"
  · rw [if_pos h1]
    constructor
    · intro h; simp at h
    · rintro ⟨h | h | h, _⟩
      · exact absurd h h1.1
      · exact absurd h h1.2.1
      · exact absurd h h1.2.2
  rw [if_neg h1]
  have hm : mode = "no" ∨ mode = "bf16" ∨ mode = "fp16" := by
    by_contra hc
    push Not at hc
    exact h1 hc
  by_cases h2 : d.toFp32 = true
  · rw [if_pos h2, if_pos h2]
    simp only [Except.ok.injEq]
    exact ⟨fun h => ⟨hm, h.symm⟩, fun h => h.2.symm⟩
  rw [if_neg h2, if_neg h2]
  by_cases h3 : k = 0
  · subst h3
    rw [if_pos (Or.inl rfl), if_neg (by simp), if_neg (by simp)]
    simp only [Except.ok.injEq]
    exact ⟨fun h => ⟨hm, h.symm⟩, fun h => h.2.symm⟩
  have hk : 0 < k := Nat.pos_of_ne_zero h3
  rcases hm with rfl | rfl | rfl
  · rw [if_pos (Or.inr rfl), if_neg (fun h => absurd h.2 (by decide)), if_neg (fun h => absurd h.2 (by decide))]
    simp only [Except.ok.injEq, true_or, true_and, eq_comm]
  · rw [if_neg (by rintro (h | h); exact h3 h; exact absurd h (by decide)), if_pos rfl, if_neg (fun h => absurd h.2 (by decide)), if_pos ⟨hk, rfl⟩]
    simp only [Except.ok.injEq, true_or, or_true, true_and, eq_comm]
  · rw [if_neg (by rintro (h | h); exact h3 h; exact absurd h (by decide)), if_neg (by decide), if_pos ⟨hk, rfl⟩]
    simp only [Except.ok.injEq, or_true, true_and, eq_comm]

theorem sampleType_float (d : Desc) (k : Nat) (mode : String) (h : d.paramDtype ∈ floats) : sampleType d k mode ∈ floats := by
  unfold sampleType
  split_ifs
  · decide
  · decide
  · decide
  · exact h

/-- What the loop over the statistics ends with. -/
def accOf (l : List Stat) (xs : List ModSchema) (a : VAcc) : VAcc :=
  ⟨a.seen ++ l.map fun s => ((s.model, s.path), s), a.raw + (l.map Stat.rawBytes).sum, a.maxRaw + (List.zipWith fullBytes l xs).sum,
    a.partly || l.any fun s => decide (0 < s.count)⟩

theorem retainedStat_iff (s : Schema) (hs : SchemaOk s) (mode : String) (a r : VAcc) (st : Stat) :
    retainedStat (descByKey s) mode a st = .ok r ↔ (∀ e ∈ a.seen, e.1 ≠ (st.model, st.path)) ∧
      ∃ x, (Has s (st.model, st.path) x ∧ Fits mode x st) ∧ r = accOf [st] [x] a := by
  unfold retainedStat
  cases hf : findKey (descByKey s) (st.model, st.path) with
  | none =>
    simp only []
    constructor
    · intro h; simp at h
    · rintro ⟨_, x, ⟨hx, _⟩, _⟩
      rw [(find_has s hs _ x).mpr hx] at hf
      simp at hf
  | some d =>
    simp only []
    have hd := (find_has s hs _ d).mp hf
    have hdok : ModOk st.model d := by obtain ⟨l, hl, hx, _⟩ := hd; exact hs.mods _ hl d hx
    have huni : ∀ x, Has s (st.model, st.path) x → x = d := fun x hx => has_unique s hs _ x d hx hd
    by_cases h1 : (a.seen.any fun e => decide (e.1 = (st.model, st.path))) = true
    · rw [if_pos h1]
      constructor
      · intro h; simp at h
      · rintro ⟨h, _⟩
        obtain ⟨e, he, hk⟩ := (any_key a.seen _).mp h1
        exact absurd hk (h e he)
    rw [if_neg h1]
    have hfresh : ∀ e ∈ a.seen, e.1 ≠ (st.model, st.path) := fun e he hk => h1 ((any_key a.seen _).mpr ⟨e, he, hk⟩)
    cases he : expectedDtype d.desc st.count mode with
    | error e =>
      simp only []
      constructor
      · intro h; simp at h
      · rintro ⟨_, x, ⟨hx, hfit⟩, _⟩
        rw [huni x hx] at hfit
        rw [(expected_iff _ _ _ _).mpr ⟨hfit.known, rfl⟩] at he
        simp at he
    | ok want =>
      simp only []
      obtain ⟨hmode, rfl⟩ := (expected_iff _ _ _ _).mp he
      have hfl := sampleType_float d.desc st.count mode hdok.dtype
      cases hb : dtypeBytes st.dtype with
      | none =>
        simp only []
        constructor
        · intro h; simp at h
        · rintro ⟨_, x, ⟨hx, hfit⟩, _⟩
          rw [huni x hx] at hfit
          rw [hfit.dtype, dtypeBytes_width _ hfl] at hb
          simp at hb
      | some w =>
        simp only []
        have hw : w = width st.dtype := by
          have := dtypeBytes_width st.dtype ((dtypeBytes_iff _).mp (by rw [hb]; rfl))
          rw [hb] at this
          exact Option.some.inj this
        subst hw
        by_cases h2 : d.desc.target < st.count ∨ st.rawBytes ≠ st.count * d.desc.dimFeature * width st.dtype ∨
            (d.inited = true ∧ st.count ≠ 0) ∨ st.dtype ≠ sampleType d.desc st.count mode
        · rw [if_pos h2]
          constructor
          · intro h; simp at h
          · rintro ⟨_, x, ⟨hx, hfit⟩, _⟩
            rw [huni x hx] at hfit
            rcases h2 with h | h | h | h
            · exact absurd h (not_lt.mpr hfit.count)
            · exact absurd hfit.bytes h
            · exact absurd (hfit.inited h.1) h.2
            · exact absurd hfit.dtype h
        rw [if_neg h2]
        rw [not_or, not_or, not_or] at h2
        obtain ⟨g1, g2, g3, g4⟩ := h2
        simp only [Except.ok.injEq]
        have hacc : accOf [st] [d] a = ⟨a.seen ++ [((st.model, st.path), st)], a.raw + st.rawBytes,
            a.maxRaw + d.desc.target * d.desc.dimFeature * width st.dtype, a.partly || decide (0 < st.count)⟩ := by
          unfold accOf fullBytes
          simp
        constructor
        · rintro rfl
          refine ⟨hfresh, d, ⟨hd, ⟨hmode, not_lt.mp g1, ?_, not_not.mp g4, not_not.mp g2⟩⟩, hacc.symm⟩
          intro hi
          by_contra hc
          exact g3 ⟨hi, hc⟩
        · rintro ⟨_, x, ⟨hx, _⟩, rfl⟩
          rw [huni x hx]
          exact hacc.symm

theorem accOf_cons (st : Stat) (l : List Stat) (x : ModSchema) (xs : List ModSchema) (a : VAcc) :
    accOf l xs (accOf [st] [x] a) = accOf (st :: l) (x :: xs) a := by
  unfold accOf
  simp [Nat.add_assoc, Bool.or_assoc]

theorem retained_loop (s : Schema) (hs : SchemaOk s) (mode : String) (l : List Stat) (a r : VAcc) :
    loop (retainedStat (descByKey s) mode) a l = .ok r ↔ (∀ st ∈ l, ∀ e ∈ a.seen, e.1 ≠ (st.model, st.path)) ∧
      (l.map fun st => (st.model, st.path)).Nodup ∧
      ∃ xs, List.Forall₂ (fun st x => Has s (st.model, st.path) x ∧ Fits mode x st) l xs ∧ r = accOf l xs a := by
  induction l generalizing a with
  | nil =>
    have h0 : accOf [] [] a = a := by unfold accOf; simp
    simp only [loop, Except.ok.injEq]
    constructor
    · rintro rfl
      exact ⟨by simp, List.nodup_nil, [], List.Forall₂.nil, h0.symm⟩
    · rintro ⟨_, _, xs, hxs, hr⟩
      cases hxs
      rw [hr, h0]
  | cons st l ih =>
    unfold loop
    cases h : retainedStat (descByKey s) mode a st with
    | error e =>
      simp only []
      constructor
      · intro h; simp at h
      · rintro ⟨h1, _, xs, hxs, _⟩
        cases hxs with
        | cons hx hxs =>
          have := (retainedStat_iff s hs mode a _ st).mpr ⟨h1 st (List.mem_cons_self ..), _, hx, rfl⟩
          rw [h] at this
          simp at this
    | ok b =>
      simp only []
      obtain ⟨h1, x, hx, hb⟩ := (retainedStat_iff s hs mode a b st).mp h
      rw [ih, hb, List.map_cons, List.nodup_cons]
      have hseen : (accOf [st] [x] a).seen = a.seen ++ [((st.model, st.path), st)] := rfl
      rw [hseen]
      constructor
      · rintro ⟨g1, g2, xs, g3, g4⟩
        refine ⟨?_, ⟨?_, g2⟩, x :: xs, List.Forall₂.cons hx g3, ?_⟩
        · intro y hy e he
          rcases List.mem_cons.mp hy with rfl | hy
          · exact h1 e he
          · exact g1 y hy e (List.mem_append_left _ he)
        · intro hm
          obtain ⟨y, hy, hk⟩ := List.mem_map.mp hm
          exact g1 y hy ((st.model, st.path), st) (by simp) hk.symm
        · rw [g4, accOf_cons]
      · rintro ⟨g1, ⟨g2, g3⟩, xs, g4, g5⟩
        cases g4 with
        | cons hx' hxs =>
          rename_i x' xs'
          have : x' = x := has_unique s hs _ x' x hx'.1 hx.1
          subst this
          refine ⟨?_, g3, xs', hxs, ?_⟩
          · intro y hy e he
            rcases List.mem_append.mp he with he | he
            · exact g1 y (List.mem_cons_of_mem _ hy) e he
            · rw [List.mem_singleton] at he
              subst he
              intro hk
              exact g2 (List.mem_map.mpr ⟨y, hy, hk.symm⟩)
          · rw [g5, accOf_cons]

theorem identity_iff (m : Manifest) (iteration rank : Nat) :
    identityOk m iteration rank = true ↔ m.version = 1 ∧ m.autocast ≠ "" ∧ Identity m iteration rank ∧ hexOk 64 m.sha = true := by
  unfold identityOk
  simp only [Bool.and_eq_true, decide_eq_true_eq]
  have hg : groupsAre (matchSidecar m.basename) iteration m.generation rank = true ↔
      ∃ it r, IsSidecar m.basename it m.generation r ∧ toInt it = iteration ∧ toInt r = rank := by
    cases hm : matchSidecar m.basename with
    | none =>
      constructor
      · intro h; simp [groupsAre] at h
      · rintro ⟨it, r, h, _⟩
        rw [(C100_grammar _ _ _ _).mpr h] at hm
        simp at hm
    | some t =>
      obtain ⟨i, g, r⟩ := t
      unfold groupsAre
      simp only [Bool.and_eq_true, decide_eq_true_eq]
      constructor
      · rintro ⟨⟨h1, h2⟩, rfl⟩
        exact ⟨i, r, (C100_grammar _ _ _ _).mp hm, h1, h2⟩
      · rintro ⟨i', r', h, h1, h2⟩
        have := (C100_grammar _ _ _ _).mpr h
        rw [hm] at this
        simp only [Option.some.injEq, Prod.mk.injEq] at this
        obtain ⟨rfl, rfl, rfl⟩ := this
        exact ⟨⟨h1, h2⟩, rfl⟩
  rw [hg]
  constructor
  · rintro ⟨⟨⟨⟨⟨⟨h1, h2⟩, h3⟩, h4⟩, h5⟩, h6⟩, h7⟩
    exact ⟨h1, h5, ⟨h3, h4, h2⟩, h7⟩
  · rintro ⟨h1, h5, ⟨h3, h4, h2⟩, h7⟩
    refine ⟨⟨⟨⟨⟨⟨h1, h2⟩, h3⟩, h4⟩, h5⟩, ?_⟩, h7⟩
    obtain ⟨_, _, h, _⟩ := h2
    exact (hexOk_iff _ _).mpr h.2.2.1

theorem bounds_iff (m : Manifest) (xs : List ModSchema) :
    boundsOk m (descByKey m.schema) (accOf m.modules xs ⟨[], 0, 0, false⟩) = true ↔
      (∀ k x, Has m.schema k x → ∃ st ∈ m.modules, (st.model, st.path) = k) ∧ (m.hasPartial = true ↔ ∃ st ∈ m.modules, 0 < st.count) ∧
      m.rawBytes = (m.modules.map Stat.rawBytes).sum ∧
      m.maximumBytes = (List.zipWith fullBytes m.modules xs).sum + slack (List.zipWith fullBytes m.modules xs).sum ∧
      m.size ≤ m.maximumBytes ∧ m.size ≤ m.rawBytes + slack m.rawBytes := by
  unfold boundsOk accOf
  simp only [Bool.and_eq_true, decide_eq_true_eq, List.nil_append, Nat.zero_add, Bool.false_or, slack_eq]
  have h1 : ((descByKey m.schema).all fun e => (m.modules.map fun s => ((s.model, s.path), s)).any fun k => decide (k.1 = e.1)) = true ↔
      ∀ k x, Has m.schema k x → ∃ st ∈ m.modules, (st.model, st.path) = k := by
    rw [List.all_eq_true]
    constructor
    · intro h k x hx
      obtain ⟨e, he, hk⟩ := (any_key _ _).mp (h (k, x) ((desc_has _ _ _).mpr hx))
      obtain ⟨st, hst, rfl⟩ := List.mem_map.mp he
      exact ⟨st, hst, hk⟩
    · rintro h ⟨k, x⟩ hx
      obtain ⟨st, hst, hk⟩ := h k x ((desc_has _ _ _).mp hx)
      exact (any_key _ _).mpr ⟨_, List.mem_map.mpr ⟨st, hst, rfl⟩, hk⟩
  have h2 : m.hasPartial = (m.modules.any fun s => decide (0 < s.count)) ↔ (m.hasPartial = true ↔ ∃ st ∈ m.modules, 0 < st.count) := by
    rw [Bool.eq_iff_iff, List.any_eq_true]
    simp only [decide_eq_true_eq]
  rw [h1, h2]
  constructor
  · rintro ⟨⟨⟨⟨⟨g1, g2⟩, g3⟩, g4⟩, g5⟩, g6⟩
    exact ⟨g1, g2, g3, g4, by rw [g4]; exact g5, by rw [g3]; exact g6⟩
  · rintro ⟨g1, g2, g3, g4, g5, g6⟩
    exact ⟨⟨⟨⟨⟨g1, g2⟩, g3⟩, g4⟩, by rw [g4] at g5; exact g5⟩, by rw [g3] at g6; exact g6⟩

/-! ### Theorems -/

/-- **C108 (exact condition).** The check passes exactly when the manifest is of the given iteration and rank, consistent in itself, and its
file is there with the size and hash recorded; it then returns the file's name. -/
theorem C108_accept_iff (x : Ext V) (dir : Dir) (m : Manifest) (iteration rank : Nat) (n : Name) :
    retained x dir m iteration rank = .ok n ↔
      n = m.basename ∧ Identity m iteration rank ∧ (∃ xs, Consistent m xs) ∧ Intact x dir m := by
  unfold retained
  by_cases h1 : identityOk m iteration rank = false
  · rw [if_pos h1]
    constructor
    · intro h; simp at h
    · rintro ⟨_, hi, ⟨xs, hc⟩, ⟨b, _, _, _, hl, hx⟩⟩
      rw [(identity_iff m iteration rank).mpr ⟨hc.version, hc.autocast, hi, (hexOk_iff _ _).mpr ⟨hl, hx⟩⟩] at h1
      simp at h1
  rw [if_neg h1]
  obtain ⟨hv, ha, hid, hsha⟩ := (identity_iff m iteration rank).mp (by simpa using h1)
  cases hl : loop schemaModel ([], []) m.schema with
  | error e =>
    simp only []
    constructor
    · intro h; simp at h
    · rintro ⟨_, _, ⟨xs, hc⟩, _⟩
      have := (schemaModel_loop m.schema [] [] (by simp) _).mpr ⟨hc.schema, by simp, rfl⟩
      rw [hl] at this
      simp at this
  | ok r =>
    obtain ⟨hs, _, hr⟩ := (schemaModel_loop m.schema [] [] (by simp) r).mp hl
    rw [hr]
    simp only [List.nil_append]
    cases hl2 : loop (retainedStat (descByKey m.schema) m.autocast) ⟨[], 0, 0, false⟩ m.modules with
    | error e =>
      simp only []
      constructor
      · intro h; simp at h
      · rintro ⟨_, _, ⟨xs, hc⟩, _⟩
        have := (retained_loop m.schema hs m.autocast m.modules ⟨[], 0, 0, false⟩ _).mpr ⟨by simp, hc.once, xs, hc.stats, rfl⟩
        rw [hl2] at this
        simp at this
    | ok a =>
      obtain ⟨_, honce, xs, hxs, rfl⟩ := (retained_loop m.schema hs m.autocast m.modules ⟨[], 0, 0, false⟩ a).mp hl2
      simp only []
      have hxsu : ∀ ys, Consistent m ys → ys = xs := by
        intro ys hc
        have : ∀ (l : List Stat) (ys xs : List ModSchema),
            List.Forall₂ (fun st x => Has m.schema (st.model, st.path) x ∧ Fits m.autocast x st) l ys →
            List.Forall₂ (fun st x => Has m.schema (st.model, st.path) x ∧ Fits m.autocast x st) l xs → ys = xs := by
          intro l
          induction l with
          | nil => intro ys xs h h'; cases h; cases h'; rfl
          | cons st l ih =>
            intro ys xs h h'
            cases h with
            | cons hy hys => cases h' with
              | cons hx hxs => rw [has_unique m.schema hs _ _ _ hy.1 hx.1, ih _ _ hys hxs]
        exact this _ _ _ hc.stats hxs
      by_cases hb : boundsOk m (descByKey m.schema) (accOf m.modules xs ⟨[], 0, 0, false⟩) = false
      · rw [if_pos hb]
        constructor
        · intro h; simp at h
        · rintro ⟨_, _, ⟨ys, hc⟩, _⟩
          have hy := hxsu ys hc
          subst hy
          rw [(bounds_iff m ys).mpr ⟨hc.all, hc.partly, hc.raw, hc.maximum, hc.size⟩] at hb
          simp at hb
      rw [if_neg hb]
      obtain ⟨b1, b2, b3, b4, b5, b6⟩ := (bounds_iff m xs).mp (by simpa using hb)
      have hcons : Consistent m xs := ⟨hv, ha, hs, hxs, honce, b1, b2, b3, b4, b5, b6⟩
      cases hf : dir m.basename with
      | none =>
        simp only []
        constructor
        · intro h; simp at h
        · rintro ⟨_, _, _, b, hb', _⟩
          rw [hf] at hb'
          simp at hb'
      | some b =>
        simp only []
        by_cases h2 : b.length ≠ m.size
        · rw [if_pos h2]
          constructor
          · intro h; simp at h
          · rintro ⟨_, _, _, b', hb', hlen, _⟩
            rw [hf] at hb'
            cases hb'
            exact absurd hlen h2
        rw [if_neg h2]
        by_cases h3 : x.sha b ≠ m.sha
        · rw [if_pos h3]
          constructor
          · intro h; simp at h
          · rintro ⟨_, _, _, b', hb', _, hsh, _⟩
            rw [hf] at hb'
            cases hb'
            exact absurd hsh h3
        rw [if_neg h3]
        simp only [Except.ok.injEq]
        constructor
        · rintro rfl
          exact ⟨rfl, hid, ⟨xs, hcons⟩, b, hf, not_not.mp h2, not_not.mp h3, (hexOk_iff _ _).mp hsha⟩
        · rintro ⟨rfl, _⟩; rfl

/-- **C108 (one checkpoint).** A manifest is accepted for one iteration and rank only. -/
theorem C108_identity (x : Ext V) (dir dir' : Dir) (m : Manifest) (i i' r r' : Nat) (n n' : Name) (h : retained x dir m i r = .ok n)
    (h' : retained x dir' m i' r' = .ok n') : i = i' ∧ r = r' ∧ n = n' := by
  obtain ⟨h1, h2, _⟩ := (C108_accept_iff x dir m i r n).mp h
  obtain ⟨h1', h2', _⟩ := (C108_accept_iff x dir' m i' r' n').mp h'
  exact ⟨h2.iter.symm.trans h2'.iter, h2.rnk.symm.trans h2'.rnk, h1.trans h1'.symm⟩

/-- **C108 (other files).** Only the sidecar the manifest names matters, and no accepted manifest survives its loss, a change of its
length, or a change of its hash. -/
theorem C108_file (x : Ext V) (dir dir' : Dir) (m : Manifest) (i r : Nat) (n : Name) (h : retained x dir m i r = .ok n) :
    retained x dir' m i r = .ok n ↔ ∃ b b', dir n = some b ∧ dir' n = some b' ∧ b'.length = b.length ∧ x.sha b' = x.sha b := by
  obtain ⟨h1, h2, h3, b, h4, h5, h6, h7⟩ := (C108_accept_iff x dir m i r n).mp h
  rw [C108_accept_iff]
  subst h1
  constructor
  · rintro ⟨_, _, _, b', g1, g2, g3, _⟩
    exact ⟨b, b', h4, g1, g2.trans h5.symm, g3.trans h6.symm⟩
  · rintro ⟨c, b', g1, g2, g3, g4⟩
    rw [h4] at g1
    cases g1
    exact ⟨rfl, h2, h3, b', g2, g3.trans h5, g4.trans h6, h7⟩

end Verif.Sidecar
