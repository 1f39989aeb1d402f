import Verif.Ckpt.Names
import Mathlib.Tactic.Linarith
import Mathlib.Data.Nat.Digits.Lemmas
import Mathlib.Data.List.Lex

/-!
# C39: the latest-checkpoint lookup
-/
namespace Verif.Ckpt

/-- `a` is not newer than `b`. -/
def notNewer (a b : Name) : Prop :=
  match iterationOf a, iterationOf b with
  | none, _ => True
  | some _, none => False
  | some i, some j => i ≤ j

theorem keyLt_not {y best : Name} (h : keyLt y best = true) : notNewer y best := by
  unfold keyLt at h
  unfold notNewer
  cases h1 : iterationOf y <;> cases h2 : iterationOf best <;> simp [h1, h2] at h ⊢
  split at h
  · omega
  · omega

theorem not_keyLt {y best : Name} (h : keyLt y best = false) : notNewer best y := by
  unfold keyLt at h
  unfold notNewer
  cases h1 : iterationOf y <;> cases h2 : iterationOf best <;> simp [h1, h2] at h ⊢
  split at h
  · omega
  · omega

theorem notNewer_refl (a : Name) : notNewer a a := by
  unfold notNewer
  cases iterationOf a <;> simp

theorem notNewer_trans {a b c : Name} (h : notNewer a b) (h' : notNewer b c) : notNewer a c := by
  unfold notNewer at *
  cases h1 : iterationOf a <;> cases h2 : iterationOf b <;> cases h3 : iterationOf c <;> simp [h1, h2, h3] at h h' ⊢
  omega

theorem foldl_max : ∀ (xs : List Name) (x : Name),
    let r := xs.foldl (fun best y => if keyLt y best then best else y) x
    r ∈ x :: xs ∧ ∀ y ∈ x :: xs, notNewer y r
  | [], x => by simp [notNewer_refl]
  | z :: xs, x => by
    simp only [List.foldl_cons]
    cases hk : keyLt z x with
    | true =>
      simp only [if_true]
      obtain ⟨h1, h2⟩ := foldl_max xs x
      refine ⟨?_, ?_⟩
      · rcases List.mem_cons.mp h1 with h1 | h1
        · rw [h1]; exact List.mem_cons_self ..
        · exact List.mem_cons_of_mem _ (List.mem_cons_of_mem _ h1)
      · intro y hy
        rcases List.mem_cons.mp hy with rfl | hy
        · exact h2 y (List.mem_cons_self ..)
        · rcases List.mem_cons.mp hy with rfl | hy
          · exact notNewer_trans (keyLt_not hk) (h2 x (List.mem_cons_self ..))
          · exact h2 y (List.mem_cons_of_mem _ hy)
    | false =>
      simp only [Bool.false_eq_true, if_false]
      obtain ⟨h1, h2⟩ := foldl_max xs z
      refine ⟨List.mem_cons_of_mem _ h1, ?_⟩
      intro y hy
      rcases List.mem_cons.mp hy with rfl | hy
      · exact notNewer_trans (not_keyLt hk) (h2 z (List.mem_cons_self ..))
      · exact h2 y hy

/-- A directory entry the lookup considers. -/
def Matches (pre : Name) (exts : List Name) (e : Name × Bool) : Prop := e.2 = true ∧ pre <+: e.1 ∧ ∃ x ∈ exts, x <:+ e.1

/-- **C39.** The lookup returns nothing exactly when no entry matches; otherwise it returns a matching file, and no matching file has a
larger iteration (as a number, whatever its zero padding). -/
theorem C39_latest (listing : List (Name × Bool)) (pre : Name) (exts : List Name) :
    (findLatest listing pre exts = none ↔ ∀ e ∈ listing, ¬ Matches pre exts e) ∧
    ∀ f, findLatest listing pre exts = some f →
      (∃ e ∈ listing, e.1 = f ∧ Matches pre exts e) ∧ ∀ e ∈ listing, Matches pre exts e → notNewer e.1 f := by
  have hm : ∀ e : Name × Bool, (e.2 && pre.isPrefixOf e.1 && exts.any fun x => x.isSuffixOf e.1) = true ↔ Matches pre exts e := by
    intro e
    simp [Matches, and_assoc]
  unfold findLatest
  generalize hl : listing.filter (fun e => e.2 && pre.isPrefixOf e.1 && exts.any fun x => x.isSuffixOf e.1) = l
  have hmem : ∀ e, e ∈ l ↔ e ∈ listing ∧ Matches pre exts e := by
    intro e; rw [← hl, List.mem_filter, hm]
  cases l with
  | nil =>
    refine ⟨⟨fun _ e he hM => ?_, fun _ => rfl⟩, by simp [lastMax]⟩
    have := (hmem e).mpr ⟨he, hM⟩
    simp at this
  | cons x xs =>
    have hne : ¬ ∀ e ∈ listing, ¬ Matches pre exts e := by
      intro h
      obtain ⟨h1, h2⟩ := (hmem x).mp (List.mem_cons_self ..)
      exact h x h1 h2
    refine ⟨⟨by simp [lastMax], fun h => absurd h hne⟩, ?_⟩
    intro f hf
    simp only [List.map_cons, lastMax, Option.some.injEq] at hf
    obtain ⟨h1, h2⟩ := foldl_max (xs.map (·.1)) x.1
    rw [hf] at h1 h2
    rw [← List.map_cons, List.mem_map] at h1
    obtain ⟨e, he, hef⟩ := h1
    obtain ⟨he1, he2⟩ := (hmem e).mp he
    refine ⟨⟨e, he1, hef, he2⟩, ?_⟩
    intro e' he' hM
    refine h2 e'.1 ?_
    rw [← List.map_cons, List.mem_map]
    exact ⟨e', (hmem e').mpr ⟨he', hM⟩, rfl⟩

/-! ### File names written by the trainer parse back to their iteration -/

theorem fmt7_digit (i : Nat) : ∀ ch ∈ fmt7 i, ∃ k, k < 10 ∧ ch = Char.ofNat (48 + k) := by
  intro ch hc
  unfold fmt7 at hc
  rcases List.mem_append.mp hc with hc | hc
  · exact ⟨0, by omega, by rw [List.eq_of_mem_replicate hc]⟩
  · simp only [List.mem_map, List.mem_reverse] at hc
    obtain ⟨k, hk, rfl⟩ := hc
    exact ⟨k, Nat.digits_lt_base (by omega) hk, rfl⟩

theorem digit_facts : ∀ k, k < 10 → (Char.ofNat (48 + k)).isDigit = true ∧ Char.ofNat (48 + k) ≠ '_' ∧ Char.ofNat (48 + k) ≠ '.' ∧
    (Char.ofNat (48 + k)).toNat - 48 = k := by decide

theorem fmt7_ne (i : Nat) : fmt7 i ≠ [] := by
  intro h
  have := congrArg List.length h
  simp only [fmt7, List.length_append, List.length_replicate, List.length_nil] at this
  omega

theorem fmt7_isDigits (i : Nat) : isDigits (fmt7 i) = true := by
  unfold isDigits
  simp only [Bool.and_eq_true, Bool.not_eq_true', List.isEmpty_eq_false_iff, List.all_eq_true]
  refine ⟨fmt7_ne i, fun ch hc => ?_⟩
  obtain ⟨k, hk, rfl⟩ := fmt7_digit i ch hc
  exact (digit_facts k hk).1

theorem toInt_fmt7 (i : Nat) : toInt (fmt7 i) = i := by
  unfold toInt fmt7
  simp only [List.foldl_append]
  have h0 : ∀ n, (List.replicate n '0').foldl (fun a (ch : Char) => 10 * a + (ch.toNat - 48)) 0 = 0 := by
    intro n
    induction n with
    | zero => rfl
    | succ n ih => rw [List.replicate_succ, List.foldl_cons]; exact ih
  rw [h0, List.foldl_map, List.foldl_reverse]
  have h1 : ∀ (l : List Nat), (∀ k ∈ l, k < 10) →
      l.foldr (fun k a => 10 * a + ((Char.ofNat (48 + k)).toNat - 48)) 0 = Nat.ofDigits 10 l := by
    intro l
    induction l with
    | nil => intro _; rfl
    | cons k l ih =>
      intro h
      rw [List.foldr_cons, ih (fun k hk => h k (List.mem_cons_of_mem _ hk)), Nat.ofDigits_cons,
        (digit_facts k (h k (List.mem_cons_self ..))).2.2.2]
      omega
  rw [h1 _ (fun k hk => Nat.digits_lt_base (by omega) hk), Nat.ofDigits_digits]

theorem splitU_ne (l : Name) : splitU l ≠ [] := by
  cases l with
  | nil => simp [splitU]
  | cons ch r =>
    rw [splitU]
    split
    · simp
    · split <;> simp

theorem splitU_noU : ∀ (b : Name), (∀ ch ∈ b, ch ≠ '_') → splitU b = [b]
  | [], _ => rfl
  | ch :: r, h => by
    rw [splitU, if_neg (h ch (List.mem_cons_self ..)), splitU_noU r (fun c hc => h c (List.mem_cons_of_mem _ hc))]

theorem splitU_append (b : Name) (hb : ∀ ch ∈ b, ch ≠ '_') : ∀ (a : Name), splitU (a ++ '_' :: b) = splitU a ++ [b]
  | [] => by simp [splitU, splitU_noU b hb]
  | ch :: a => by
    rw [List.cons_append, splitU, splitU, splitU_append b hb a]
    split
    · rfl
    · cases hs : splitU a with
      | nil => exact absurd hs (splitU_ne a)
      | cons p ps => rfl

theorem rootOf_pt (a : Name) (h : ∃ ch ∈ a, ch ≠ '.') : rootOf (a ++ ".pt".toList) = a := by
  unfold rootOf
  have h1 : (a ++ ".pt".toList).reverse = 't' :: 'p' :: '.' :: a.reverse := by simp
  rw [h1]
  have h2 : ('t' :: 'p' :: '.' :: a.reverse).dropWhile (· ≠ '.') = '.' :: a.reverse := by
    simp
  rw [h2]
  simp only
  rw [if_neg]
  · simp
  · rw [List.all_eq_true]
    intro hall
    obtain ⟨ch, hc, hne⟩ := h
    have := hall ch (List.mem_reverse.mpr hc)
    simp at this
    exact hne this

theorem iterationOf_last (a : Name) (i : Nat) : iterationOf (a ++ '_' :: fmt7 i ++ ".pt".toList) = some i := by
  unfold iterationOf
  rw [rootOf_pt _ ⟨'_', by simp, by decide⟩, splitU_append]
  · simp [List.find?, fmt7_isDigits, toInt_fmt7]
  · intro ch hc
    obtain ⟨k, hk, rfl⟩ := fmt7_digit i ch hc
    exact (digit_facts k hk).2.1

/-- **C39 (round trip).** Every state and model file the trainer writes is recognised with its own iteration, for iterations of any
number of digits and model names with any characters. -/
theorem C39_names_round_trip (i : Nat) (m : Name) : iterationOf (stateName i) = some i ∧ iterationOf (modelName m i) = some i := by
  refine ⟨?_, ?_⟩
  · have : stateName i = "state".toList ++ '_' :: fmt7 i ++ ".pt".toList := by simp [stateName]
    rw [this]
    exact iterationOf_last _ i
  · have : modelName m i = ("ckpt_".toList ++ m) ++ '_' :: fmt7 i ++ ".pt".toList := by simp [modelName]
    rw [this]
    exact iterationOf_last _ i

/-- **C39 (resume).** In a directory whose files starting with `state_` are the states of iterations `its` (and temporary `.tmp` files),
the lookup used for resuming finds the state of the largest iteration. -/
theorem C39_resume_latest (listing : List (Name × Bool)) (its : List Nat)
    (hfiles : ∀ e ∈ listing, e.2 = true → "state_".toList <+: e.1 → ".pt".toList <:+ e.1 → ∃ i ∈ its, e.1 = stateName i)
    (hits : ∀ i ∈ its, (stateName i, true) ∈ listing) (f : Name) (hf : findLatest listing "state_".toList [".pt".toList] = some f) :
    ∃ i ∈ its, f = stateName i ∧ ∀ j ∈ its, j ≤ i := by
  obtain ⟨⟨e, he, hef, hM⟩, hmax⟩ := (C39_latest listing "state_".toList [".pt".toList]).2 f hf
  obtain ⟨h1, h2, x, hx, h3⟩ := hM
  simp only [List.mem_singleton] at hx
  subst hx
  obtain ⟨i, hi, hei⟩ := hfiles e he h1 h2 h3
  rw [← hef]
  refine ⟨i, hi, hei, ?_⟩
  intro j hj
  have := hmax _ (hits j hj) ⟨rfl, ⟨_, by rw [stateName, List.append_assoc]⟩, ".pt".toList, by simp, ⟨_, rfl⟩⟩
  rw [← hef, hei] at this
  simp only [notNewer, (C39_names_round_trip i []).1, (C39_names_round_trip j []).1] at this
  exact this

/-- Injective, so two iterations never share a file. -/
theorem C39_state_name_injective (i j : Nat) (h : stateName i = stateName j) : i = j := by
  have h1 := (C39_names_round_trip i []).1
  rw [h, (C39_names_round_trip j []).1] at h1
  simpa using h1.symm

/-- A temporary file of a state is not taken for a state. -/
theorem C39_tmp_ignored (i : Nat) : ¬ ".pt".toList <:+ stateName i ++ ".tmp".toList := by
  intro h
  have h' := List.reverse_prefix.mpr h
  simp at h'

/-- A leftover temporary file of a model whose name has a numeric part is read as a different iteration (here 2): the last numeric part is
not the iteration when the extension is `.tmp`.  (The pruning code therefore lists it under that iteration.) -/
example : iterationOf "ckpt_mix_2_0000010.pt.tmp".toList = some 2 ∧ iterationOf "ckpt_mix_0000010.pt.tmp".toList = none := by
  decide +kernel

example : findLatest [("state_9999999.pt".toList, true), ("state_10000000.pt".toList, true), ("state_0000003.pt".toList, true),
    ("state_final.pt".toList, true), ("state_99999999.pt".toList, false)] "state_".toList [".pt".toList] = some "state_10000000.pt".toList := by
  decide +kernel

end Verif.Ckpt
