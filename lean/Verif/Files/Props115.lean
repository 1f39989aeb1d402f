import Verif.Files.Model
import Mathlib.Data.List.Nodup
import Mathlib.Data.List.Perm.Basic
import Mathlib.Data.List.Forall2
import Mathlib.Tactic.ByContra

/-!
# C115: the data file list is every accepted file once, in an order that does not depend on the operating system
-/
namespace Verif.Files

variable {N P : Type} [LinearOrder N]

/-! ### Specification -/

/-- `p` is a file below the directory. -/
inductive IsFile : Ent N → List N → Prop
  | here (n : N) (r : Ent N) : IsFile (.file n r) [n]
  | pastFile (n : N) (r : Ent N) (p : List N) : IsFile r p → IsFile (.file n r) p
  | inside (n : N) (s r : Ent N) (p : List N) : IsFile s p → IsFile (.dir n s r) (n :: p)
  | pastDir (n : N) (s r : Ent N) (p : List N) : IsFile r p → IsFile (.dir n s r) p

/-- The names in a directory. -/
def names : Ent N → List N
  | .nil => []
  | .file n r => n :: names r
  | .dir n _ r => n :: names r

/-- No two entries of a directory have the same name, here and below. -/
def Distinct : Ent N → Prop
  | .nil => True
  | .file n r => n ∉ names r ∧ Distinct r
  | .dir n s r => n ∉ names r ∧ Distinct s ∧ Distinct r

/-- The order of the list: the files of a directory by name, then its subdirectories by name, each in this order. -/
inductive Before : List N → List N → Prop
  | files (a b : N) : a < b → Before [a] [b]
  | fileFirst (a b c : N) (q : List N) : Before [a] (b :: c :: q)
  | dirs (a b c d : N) (p q : List N) : a < b → Before (a :: c :: p) (b :: d :: q)
  | inside (a : N) (p q : List N) : Before p q → Before (a :: p) (a :: q)

/-- The file name of a path is accepted. -/
def Accepted (ok : N → Bool) (p : List N) : Prop := ∃ n, p.getLast? = some n ∧ ok n = true

/-! ### Auxiliary -/

omit [LinearOrder N] in
theorem isFile_ne {e : Ent N} {p : List N} (h : IsFile e p) : p ≠ [] := by
  induction h with
  | here n r => simp
  | pastFile n r p _ ih => exact ih
  | inside n s r p _ _ => simp
  | pastDir n s r p _ ih => exact ih

theorem before_ne {p q : List N} (h : Before p q) : p ≠ [] ∧ q ≠ [] := by
  cases h <;> simp

theorem before_asymm {p q : List N} (h : Before p q) : ¬ Before q p := by
  induction h with
  | files a b hab =>
    intro h'
    cases h' with
    | files _ _ h => exact absurd hab (not_lt.mpr h.le)
    | inside _ _ _ h => exact (before_ne h).1 rfl
  | fileFirst a b c q =>
    intro h'
    cases h' with
    | inside _ _ _ h => exact (before_ne h).2 rfl
  | dirs a b c d p q hab =>
    intro h'
    cases h' with
    | dirs _ _ _ _ _ _ h => exact absurd hab (not_lt.mpr h.le)
    | inside _ _ _ h => exact lt_irrefl _ hab
  | inside a p q h ih =>
    intro h'
    cases h' with
    | files _ _ h2 => exact (before_ne h).1 rfl
    | fileFirst _ _ c q => exact (before_ne h).2 rfl
    | dirs _ _ _ _ _ _ h2 => exact lt_irrefl a (by assumption)
    | inside _ _ _ h2 => exact ih h2

omit [LinearOrder N] in
theorem accepted_cons (ok : N → Bool) (n : N) {p : List N} (hp : p ≠ []) : Accepted ok (n :: p) ↔ Accepted ok p := by
  cases p with
  | nil => exact absurd rfl hp
  | cons a r => unfold Accepted; rw [List.getLast?_cons_cons]

theorem mem_assemble (ok : N → Bool) (r : List N × List (N × List (List N))) (p : List N) :
    p ∈ assemble ok r ↔ (∃ n ∈ r.1, ok n = true ∧ p = [n]) ∨ ∃ d ∈ r.2, ∃ q ∈ d.2, p = d.1 :: q := by
  unfold assemble
  rw [List.mem_append, List.mem_map, List.mem_flatMap]
  constructor
  · rintro (⟨n, hn, rfl⟩ | ⟨d, hd, hp⟩)
    · obtain ⟨h1, h2⟩ := List.mem_filter.mp hn
      exact Or.inl ⟨n, (List.mem_insertionSort _).mp h1, h2, rfl⟩
    · obtain ⟨q, hq, rfl⟩ := List.mem_map.mp hp
      exact Or.inr ⟨d, (List.mem_insertionSort _).mp hd, q, hq, rfl⟩
  · rintro (⟨n, hn, h, rfl⟩ | ⟨d, hd, q, hq, rfl⟩)
    · exact Or.inl ⟨n, List.mem_filter.mpr ⟨(List.mem_insertionSort _).mpr hn, h⟩, rfl⟩
    · exact Or.inr ⟨d, (List.mem_insertionSort _).mpr hd, List.mem_map.mpr ⟨q, hq, rfl⟩⟩

theorem mem_walk (ok : N → Bool) (e : Ent N) : ∀ p, p ∈ assemble ok (scan ok e) ↔ IsFile e p ∧ Accepted ok p := by
  induction e with
  | nil =>
    intro p
    rw [mem_assemble]
    constructor
    · rintro (⟨n, hn, _⟩ | ⟨d, hd, _⟩)
      · exact absurd hn List.not_mem_nil
      · exact absurd hd List.not_mem_nil
    · rintro ⟨h, _⟩; cases h
  | file n r ih =>
    intro p
    have ihp := ih p
    rw [mem_assemble] at ihp ⊢
    constructor
    · rintro (⟨k, hk, hok, rfl⟩ | h)
      · rcases List.mem_cons.mp hk with rfl | hk
        · exact ⟨.here _ _, k, rfl, hok⟩
        · obtain ⟨h1, h2⟩ := ihp.mp (Or.inl ⟨k, hk, hok, rfl⟩)
          exact ⟨.pastFile _ _ _ h1, h2⟩
      · obtain ⟨h1, h2⟩ := ihp.mp (Or.inr h)
        exact ⟨.pastFile _ _ _ h1, h2⟩
    · rintro ⟨h, ha⟩
      cases h with
      | here =>
        obtain ⟨k, hk, hok⟩ := ha
        have : n = k := Option.some.inj hk
        exact Or.inl ⟨n, List.mem_cons_self, this ▸ hok, rfl⟩
      | pastFile _ _ _ h =>
        rcases ihp.mpr ⟨h, ha⟩ with ⟨k, hk, h⟩ | h
        · exact Or.inl ⟨k, List.mem_cons_of_mem _ hk, h⟩
        · exact Or.inr h
  | dir n s r ihs ih =>
    intro p
    have ihp := ih p
    rw [mem_assemble] at ihp ⊢
    constructor
    · rintro (h | ⟨d, hd, q, hq, rfl⟩)
      · obtain ⟨h1, h2⟩ := ihp.mp (Or.inl h)
        exact ⟨.pastDir _ _ _ _ h1, h2⟩
      · rcases List.mem_cons.mp hd with rfl | hd
        · obtain ⟨h1, h2⟩ := (ihs q).mp hq
          exact ⟨.inside _ _ _ _ h1, (accepted_cons ok n (isFile_ne h1)).mpr h2⟩
        · obtain ⟨h1, h2⟩ := ihp.mp (Or.inr ⟨d, hd, q, hq, rfl⟩)
          exact ⟨.pastDir _ _ _ _ h1, h2⟩
    · rintro ⟨h, ha⟩
      cases h with
      | inside _ _ _ q h =>
        exact Or.inr ⟨(n, assemble ok (scan ok s)), List.mem_cons_self, q, (ihs q).mpr ⟨h, (accepted_cons ok n (isFile_ne h)).mp ha⟩, rfl⟩
      | pastDir _ _ _ _ h =>
        rcases ihp.mpr ⟨h, ha⟩ with h | ⟨d, hd, h⟩
        · exact Or.inl h
        · exact Or.inr ⟨d, List.mem_cons_of_mem _ hd, h⟩

/-- What `scan` guarantees of a directory with distinct names. -/
structure Good (r : List N × List (N × List (List N))) (ns : List N) : Prop where
  files : r.1.Nodup
  dirs : (r.2.map (·.1)).Nodup
  subF : ∀ n ∈ r.1, n ∈ ns
  subD : ∀ d ∈ r.2, d.1 ∈ ns
  sorted : ∀ d ∈ r.2, d.2.Pairwise Before
  ne : ∀ d ∈ r.2, ∀ q ∈ d.2, q ≠ []

theorem assemble_sorted (ok : N → Bool) (r : List N × List (N × List (List N))) (ns : List N) (h : Good r ns) :
    (assemble ok r).Pairwise Before := by
  unfold assemble
  refine List.pairwise_append.mpr ⟨?_, ?_, ?_⟩
  · refine List.pairwise_map.mpr (List.Pairwise.filter _ ?_)
    have h1 := List.pairwise_insertionSort (· ≤ ·) r.1
    have h2 : (r.1.insertionSort (· ≤ ·)).Nodup := (List.perm_insertionSort _ _).nodup_iff.mpr h.files
    exact (h1.and h2).imp fun hab => Before.files _ _ (lt_of_le_of_ne hab.1 hab.2)
  · rw [List.pairwise_flatMap]
    constructor
    · intro d hd
      have hd' := (List.mem_insertionSort _).mp hd
      exact List.pairwise_map.mpr ((h.sorted d hd').imp fun hab => Before.inside _ _ _ hab)
    · have h1 := List.pairwise_insertionSort (fun a b : N × List (List N) => a.1 ≤ b.1) r.2
      have h2 : ((r.2.insertionSort fun a b => a.1 ≤ b.1).map (·.1)).Nodup := ((List.perm_insertionSort _ _).map _).nodup_iff.mpr h.dirs
      have h3 := List.pairwise_map.mp h2
      have h4 : (r.2.insertionSort fun a b => a.1 ≤ b.1).Pairwise fun a b => a.1 < b.1 ∧ (∀ q ∈ a.2, q ≠ []) ∧ ∀ q ∈ b.2, q ≠ [] := by
        have h5 : ∀ d ∈ r.2.insertionSort (fun a b => a.1 ≤ b.1), ∀ q ∈ d.2, q ≠ [] := fun d hd => h.ne d ((List.mem_insertionSort _).mp hd)
        refine List.Pairwise.imp_of_mem ?_ (h1.and h3)
        intro a b ha hb hab
        exact ⟨lt_of_le_of_ne hab.1 hab.2, h5 a ha, h5 b hb⟩
      refine h4.imp ?_
      rintro a b ⟨hlt, hna, hnb⟩ x hx y hy
      obtain ⟨p, hp, rfl⟩ := List.mem_map.mp hx
      obtain ⟨q, hq, rfl⟩ := List.mem_map.mp hy
      obtain ⟨c, p', rfl⟩ := List.exists_cons_of_ne_nil (hna p hp)
      obtain ⟨d, q', rfl⟩ := List.exists_cons_of_ne_nil (hnb q hq)
      exact Before.dirs _ _ _ _ _ _ hlt
  · intro x hx y hy
    obtain ⟨n, _, rfl⟩ := List.mem_map.mp hx
    obtain ⟨d, hd, hy⟩ := List.mem_flatMap.mp hy
    obtain ⟨q, hq, rfl⟩ := List.mem_map.mp hy
    obtain ⟨c, q', rfl⟩ := List.exists_cons_of_ne_nil (h.ne d ((List.mem_insertionSort _).mp hd) q hq)
    exact Before.fileFirst _ _ _ _

theorem scan_good (ok : N → Bool) (e : Ent N) : Distinct e → Good (scan ok e) (names e) := by
  induction e with
  | nil =>
    intro _
    exact ⟨List.nodup_nil, List.nodup_nil, fun _ h => h, fun _ h => absurd h List.not_mem_nil, fun _ h => absurd h List.not_mem_nil,
      fun _ h => absurd h List.not_mem_nil⟩
  | file n r ih =>
    rintro ⟨hn, hr⟩
    have h := ih hr
    refine ⟨List.nodup_cons.mpr ⟨fun hm => hn (h.subF n hm), h.files⟩, h.dirs, ?_, fun d hd => List.mem_cons_of_mem _ (h.subD d hd), h.sorted, h.ne⟩
    intro k hk
    rcases List.mem_cons.mp hk with rfl | hk
    · exact List.mem_cons_self
    · exact List.mem_cons_of_mem _ (h.subF k hk)
  | dir n s r ihs ih =>
    rintro ⟨hn, hs, hr⟩
    have h := ih hr
    have hg := ihs hs
    refine ⟨h.files, ?_, fun k hk => List.mem_cons_of_mem _ (h.subF k hk), ?_, ?_, ?_⟩
    · refine List.nodup_cons.mpr ⟨fun hm => ?_, h.dirs⟩
      obtain ⟨d, hd, he⟩ := List.mem_map.mp hm
      have := h.subD d hd
      rw [he] at this
      exact hn this
    · intro d hd
      rcases List.mem_cons.mp hd with rfl | hd
      · exact List.mem_cons_self
      · exact List.mem_cons_of_mem _ (h.subD d hd)
    · intro d hd
      rcases List.mem_cons.mp hd with rfl | hd
      · exact assemble_sorted ok _ _ hg
      · exact h.sorted d hd
    · intro d hd q hq
      rcases List.mem_cons.mp hd with rfl | hd
      · exact isFile_ne ((mem_walk ok s q).mp hq).1
      · exact h.ne d hd q hq

theorem sorted_nodup {l : List (List N)} (h : l.Pairwise Before) : l.Nodup := by
  refine List.Pairwise.imp (R := Before) ?_ h
  intro a b hab he
  rw [he] at hab
  exact before_asymm hab hab

/-! ### Theorems -/

/-- What one path contributes: itself if it is a file; if it is a directory, the accepted files below it, each once and in order. -/
def Contributes (ok : N → Bool) (kind : P → Kind N) (p : P) (l : List (P × List N)) : Prop :=
  (kind p = .file ∧ l = [(p, [])]) ∨
  ∃ (e : Ent N) (qs : List (List N)), kind p = .dir e ∧ l = qs.map (fun q => (p, q)) ∧ (∀ q, q ∈ qs ↔ IsFile e q ∧ Accepted ok q) ∧ (Distinct e → qs.Pairwise Before ∧ qs.Nodup)

/-- **C115 (contents).** The list raises exactly if some path is neither file nor directory; otherwise it is, path by path, what each path contributes. -/
theorem C115_contents (ok : N → Bool) (kind : P → Kind N) (ps : List P) :
    (fileList ok kind ps = none ↔ ∃ p ∈ ps, kind p = .missing) ∧
    ∀ l, fileList ok kind ps = some l → ∃ parts, l = parts.flatten ∧ List.Forall₂ (Contributes ok kind) ps parts := by
  induction ps with
  | nil =>
    refine ⟨⟨fun h => (by cases h), fun ⟨p, hp, _⟩ => absurd hp List.not_mem_nil⟩, fun l h => ?_⟩
    cases h
    exact ⟨[], rfl, .nil⟩
  | cons p ps ih =>
    have heq : fileList ok kind (p :: ps) = (match ofPath ok p (kind p) with
      | none => none
      | some l => (fileList ok kind ps).map fun r => l ++ r) := rfl
    cases hk : kind p with
    | missing =>
      have : fileList ok kind (p :: ps) = none := by rw [heq, hk]; rfl
      rw [this]
      exact ⟨⟨fun _ => ⟨p, List.mem_cons_self, hk⟩, fun _ => rfl⟩, fun l h => by cases h⟩
    | file =>
      have h1 : fileList ok kind (p :: ps) = (fileList ok kind ps).map fun r => [(p, [])] ++ r := by rw [heq, hk]; rfl
      rw [h1]
      refine ⟨?_, fun l hl => ?_⟩
      · rw [Option.map_eq_none_iff, ih.1]
        constructor
        · rintro ⟨q, hq, h⟩; exact ⟨q, List.mem_cons_of_mem _ hq, h⟩
        · rintro ⟨q, hq, h⟩
          rcases List.mem_cons.mp hq with rfl | hq
          · rw [hk] at h; cases h
          · exact ⟨q, hq, h⟩
      · obtain ⟨r, hr, rfl⟩ := Option.map_eq_some_iff.mp hl
        obtain ⟨parts, h2, h3⟩ := ih.2 r hr
        exact ⟨[(p, [])] :: parts, by rw [List.flatten_cons, h2], .cons (Or.inl ⟨hk, rfl⟩) h3⟩
    | dir e =>
      have h1 : fileList ok kind (p :: ps) = (fileList ok kind ps).map fun r => (assemble ok (scan ok e)).map (fun q => (p, q)) ++ r := by rw [heq, hk]; rfl
      rw [h1]
      refine ⟨?_, fun l hl => ?_⟩
      · rw [Option.map_eq_none_iff, ih.1]
        constructor
        · rintro ⟨q, hq, h⟩; exact ⟨q, List.mem_cons_of_mem _ hq, h⟩
        · rintro ⟨q, hq, h⟩
          rcases List.mem_cons.mp hq with rfl | hq
          · rw [hk] at h; cases h
          · exact ⟨q, hq, h⟩
      · obtain ⟨r, hr, rfl⟩ := Option.map_eq_some_iff.mp hl
        obtain ⟨parts, h2, h3⟩ := ih.2 r hr
        refine ⟨_ :: parts, by rw [List.flatten_cons, h2], .cons (Or.inr ⟨e, _, hk, rfl, mem_walk ok e, fun hd => ?_⟩) h3⟩
        have hs := assemble_sorted ok _ _ (scan_good ok e hd)
        exact ⟨hs, sorted_nodup hs⟩

/-- Two sorted lists of the same files are the same list. -/
theorem sorted_unique (l l' : List (List N)) (h : l.Pairwise Before) (h' : l'.Pairwise Before) (hm : ∀ q, q ∈ l ↔ q ∈ l') : l = l' := by
  have n1 : l.Nodup := sorted_nodup h
  have n2 : l'.Nodup := sorted_nodup h'
  have hp : l.Perm l' := (List.perm_ext_iff_of_nodup n1 n2).mpr hm
  exact hp.eq_of_pairwise (fun a b _ _ hab hba => absurd hba (before_asymm hab)) h h'

/-- Two views of a path: the same file, or directories with the same files below, however listed, or both missing. -/
def SameFiles (k k' : Kind N) : Prop :=
  (k = .file ∧ k' = .file) ∨ (k = .missing ∧ k' = .missing) ∨
  ∃ e e', k = .dir e ∧ k' = .dir e' ∧ Distinct e ∧ Distinct e' ∧ ∀ q, IsFile e q ↔ IsFile e' q

/-- **C115 (listing order).** The list does not depend on the order in which the operating system lists directories, nor on empty directories. -/
theorem C115_deterministic (ok : N → Bool) (kind kind' : P → Kind N) (ps : List P) (h : ∀ p ∈ ps, SameFiles (kind p) (kind' p)) :
    fileList ok kind ps = fileList ok kind' ps := by
  induction ps with
  | nil => rfl
  | cons p ps ih =>
    have heq : ∀ kind : P → Kind N, fileList ok kind (p :: ps) = (match ofPath ok p (kind p) with
      | none => none
      | some l => (fileList ok kind ps).map fun r => l ++ r) := fun _ => rfl
    have hp : ofPath ok p (kind p) = ofPath ok p (kind' p) := by
      rcases h p List.mem_cons_self with ⟨h1, h2⟩ | ⟨h1, h2⟩ | ⟨e, e', h1, h2, h3, h4, h5⟩
      · rw [h1, h2]
      · rw [h1, h2]
      · rw [h1, h2]
        have : assemble ok (scan ok e) = assemble ok (scan ok e') := by
          refine sorted_unique _ _ (assemble_sorted ok _ _ (scan_good ok e h3)) (assemble_sorted ok _ _ (scan_good ok e' h4)) fun q => ?_
          rw [mem_walk, mem_walk, h5]
        show some _ = some _
        rw [this]
    rw [heq, heq, hp, ih fun q hq => h q (List.mem_cons_of_mem _ hq)]

end Verif.Files
