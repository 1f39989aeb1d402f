import Verif.Sidecar.Files
import Verif.Ckpt.Props39
import Mathlib.Tactic.SplitIfs

/-!
# C100: sidecar names identify their run point, and publishing one never damages a published file
-/
namespace Verif.Sidecar
open Verif.Ckpt (Name toInt fmt7)

/-! ### Specification -/

def Digits (d : Name) : Prop := ∀ c ∈ d, c.isDigit = true

/-- `[0-9]{7}` or `[1-9][0-9]{7,}`. -/
def IterText (d : Name) : Prop := Digits d ∧ (d.length = 7 ∨ (8 ≤ d.length ∧ d.head? ≠ some '0'))

/-- `0` or `[1-9][0-9]*`. -/
def NatText (d : Name) : Prop := Digits d ∧ (d = ['0'] ∨ (d ≠ [] ∧ d.head? ≠ some '0'))

/-- `[0-9a-f]{32}`. -/
def Hex32 (g : Name) : Prop := g.length = 32 ∧ ∀ c ∈ g, c.isDigit = true ∨ ('a' ≤ c ∧ c ≤ 'f')

/-- The grammar of sidecar names. -/
def IsSidecar (n it g r : Name) : Prop :=
  n = "runtime_".toList ++ it ++ "_".toList ++ g ++ "_rank_".toList ++ r ++ ".pt".toList ∧ IterText it ∧ Hex32 g ∧ NatText r

/-! ### Lemmas on the matcher -/

theorem dropLit_iff (p n r : Name) : dropLit p n = some r ↔ n = p ++ r := by
  induction p generalizing n with
  | nil => simp [dropLit, eq_comm]
  | cons c p ih =>
    cases n with
    | nil => simp [dropLit]
    | cons d n =>
      unfold dropLit
      by_cases h : c = d
      · rw [if_pos h, ih]; subst h; simp
      · rw [if_neg h]
        constructor
        · intro h'; simp at h'
        · intro h'
          simp only [List.cons_append, List.cons.injEq] at h'
          exact absurd h'.1.symm h

theorem takeWhile_run (d n : Name) (hd : Digits d) (hn : ∀ c, n.head? = some c → c.isDigit = false) :
    (d ++ n).takeWhile isDec = d ∧ (d ++ n).dropWhile isDec = n := by
  induction d with
  | nil =>
    cases n with
    | nil => exact ⟨rfl, rfl⟩
    | cons c n =>
      have : isDec c = false := hn c rfl
      constructor
      · rw [List.nil_append, List.takeWhile_cons_of_neg (by rw [this]; decide)]
      · rw [List.nil_append, List.dropWhile_cons_of_neg (by rw [this]; decide)]
  | cons c d ih =>
    have hc : isDec c = true := hd c (List.mem_cons_self ..)
    obtain ⟨h1, h2⟩ := ih fun x hx => hd x (List.mem_cons_of_mem _ hx)
    constructor
    · rw [List.cons_append, List.takeWhile_cons_of_pos hc, h1]
    · rw [List.cons_append, List.dropWhile_cons_of_pos hc, h2]

theorem digits_takeWhile (n : Name) : Digits (n.takeWhile isDec) := by
  intro c hc
  induction n with
  | nil => simp at hc
  | cons x n ih =>
    by_cases h : isDec x = true
    · rw [List.takeWhile_cons_of_pos h] at hc
      rcases List.mem_cons.mp hc with rfl | hc
      · exact h
      · exact ih hc
    · rw [List.takeWhile_cons_of_neg h] at hc
      simp at hc

theorem noZero_iff (d : Name) : noZero d = true ↔ d ≠ [] ∧ d.head? ≠ some '0' := by
  cases d <;> simp [noZero]

theorem iterOk_iff (d : Name) : iterOk d = true ↔ d.length = 7 ∨ (8 ≤ d.length ∧ d.head? ≠ some '0') := by
  unfold iterOk
  rw [Bool.or_eq_true, Bool.and_eq_true, noZero_iff, decide_eq_true_iff, decide_eq_true_iff]
  constructor
  · rintro (h | ⟨h, _, h2⟩)
    · exact .inl h
    · exact .inr ⟨h, h2⟩
  · rintro (h | ⟨h, h2⟩)
    · exact .inl h
    · refine .inr ⟨h, ?_, h2⟩
      intro h0; subst h0; simp at h

theorem natOk_iff (d : Name) : natOk d = true ↔ d = ['0'] ∨ (d ≠ [] ∧ d.head? ≠ some '0') := by
  unfold natOk
  rw [Bool.or_eq_true, noZero_iff, decide_eq_true_iff]

theorem hexOk_iff (k : Nat) (g : Name) : hexOk k g = true ↔ g.length = k ∧ ∀ c ∈ g, c.isDigit = true ∨ ('a' ≤ c ∧ c ≤ 'f') := by
  unfold hexOk isHex
  simp only [Bool.and_eq_true, decide_eq_true_iff, List.all_eq_true, Bool.or_eq_true]

/-- **C100 (grammar).** The name check accepts exactly the names of the grammar, and returns their three parts. -/
theorem C100_grammar (n it g r : Name) : matchSidecar n = some (it, g, r) ↔ IsSidecar n it g r := by
  constructor
  · intro h
    unfold matchSidecar at h
    cases h1 : dropLit "runtime_".toList n with
    | none => rw [h1] at h; simp at h
    | some n1 =>
      rw [h1] at h
      simp only [] at h
      by_cases hi : iterOk (n1.takeWhile isDec) = false
      · rw [if_pos hi] at h; simp at h
      rw [if_neg hi] at h
      cases h2 : dropLit ['_'] (n1.dropWhile isDec) with
      | none => rw [h2] at h; simp at h
      | some n3 =>
        rw [h2] at h
        simp only [] at h
        by_cases hx : hexOk 32 (n3.take 32) = false
        · rw [if_pos hx] at h; simp at h
        rw [if_neg hx] at h
        cases h3 : dropLit "_rank_".toList (n3.drop 32) with
        | none => rw [h3] at h; simp at h
        | some n4 =>
          rw [h3] at h
          simp only [] at h
          by_cases hr : natOk (n4.takeWhile isDec) = false
          · rw [if_pos hr] at h; simp at h
          rw [if_neg hr] at h
          by_cases hp : n4.dropWhile isDec = ".pt".toList
          · rw [if_pos hp] at h
            simp only [Option.some.injEq, Prod.mk.injEq] at h
            obtain ⟨rfl, rfl, rfl⟩ := h
            rw [dropLit_iff] at h1 h2 h3
            have e1 : n1 = n1.takeWhile isDec ++ ('_' :: n3) := by
              conv_lhs => rw [← List.takeWhile_append_dropWhile (p := isDec) (l := n1)]
              rw [h2]; rfl
            have e3 : n3 = n3.take 32 ++ ("_rank_".toList ++ n4) := by
              conv_lhs => rw [← List.take_append_drop 32 n3]
              rw [h3]
            have e4 : n4 = n4.takeWhile isDec ++ ".pt".toList := by
              conv_lhs => rw [← List.takeWhile_append_dropWhile (p := isDec) (l := n4)]
              rw [hp]
            refine ⟨?_, ⟨digits_takeWhile _, (iterOk_iff _).mp (by simpa using hi)⟩, (hexOk_iff _ _).mp (by simpa using hx),
              digits_takeWhile _, (natOk_iff _).mp (by simpa using hr)⟩
            have e5 : n = "runtime_".toList ++ (n1.takeWhile isDec ++ ("_".toList ++ (n3.take 32 ++ ("_rank_".toList ++
                (n4.takeWhile isDec ++ ".pt".toList))))) := by
              rw [← e4, ← e3]
              exact h1.trans (congrArg _ e1)
            rw [e5]
            simp only [List.append_assoc]
          · rw [if_neg hp] at h; simp at h
  · rintro ⟨rfl, ⟨hd, hi⟩, hg, ⟨hdr, hr⟩⟩
    have hrun1 := takeWhile_run it ("_".toList ++ (g ++ ("_rank_".toList ++ (r ++ ".pt".toList)))) hd
      (by intro c hc; simp only [String.reduceToList, List.cons_append, List.head?_cons, Option.some.injEq] at hc; subst hc; rfl)
    have hrun2 := takeWhile_run r ".pt".toList hdr
      (by intro c hc; simp only [String.reduceToList, List.head?_cons, Option.some.injEq] at hc; subst hc; rfl)
    unfold matchSidecar
    have e1 : dropLit "runtime_".toList ("runtime_".toList ++ it ++ "_".toList ++ g ++ "_rank_".toList ++ r ++ ".pt".toList) =
        some (it ++ ("_".toList ++ (g ++ ("_rank_".toList ++ (r ++ ".pt".toList))))) := by
      rw [dropLit_iff]; simp only [List.append_assoc]
    rw [e1]
    simp only []
    rw [hrun1.1, hrun1.2, if_neg (by rw [(iterOk_iff it).mpr hi]; decide)]
    have e2 : dropLit ['_'] ("_".toList ++ (g ++ ("_rank_".toList ++ (r ++ ".pt".toList)))) =
        some (g ++ ("_rank_".toList ++ (r ++ ".pt".toList))) := by rw [dropLit_iff]; rfl
    rw [e2]
    simp only []
    have e3 : (g ++ ("_rank_".toList ++ (r ++ ".pt".toList))).take 32 = g := by
      rw [← hg.1, List.take_left']; rfl
    have e4 : (g ++ ("_rank_".toList ++ (r ++ ".pt".toList))).drop 32 = "_rank_".toList ++ (r ++ ".pt".toList) := by
      rw [← hg.1, List.drop_left']; rfl
    rw [e3, e4, if_neg (by rw [(hexOk_iff 32 g).mpr hg]; decide)]
    have e5 : dropLit "_rank_".toList ("_rank_".toList ++ (r ++ ".pt".toList)) = some (r ++ ".pt".toList) := by rw [dropLit_iff]
    rw [e5]
    simp only []
    rw [hrun2.1, hrun2.2, if_neg (by rw [(natOk_iff r).mpr hr]; decide), if_pos rfl]

/-! ### Numbers -/

theorem digitText (n : Nat) : Digits ((Nat.digits 10 n).reverse.map fun k => Char.ofNat (48 + k)) := by
  intro c hc
  simp only [List.mem_map, List.mem_reverse] at hc
  obtain ⟨k, hk, rfl⟩ := hc
  exact (Verif.Ckpt.digit_facts k (Nat.digits_lt_base (by omega) hk)).1

theorem head_nonzero (n : Nat) (hn : n ≠ 0) : ((Nat.digits 10 n).reverse.map fun k => Char.ofNat (48 + k)).head? ≠ some '0' := by
  have hne : Nat.digits 10 n ≠ [] := Nat.digits_ne_nil_iff_ne_zero.mpr hn
  have hl := Nat.getLast_digit_ne_zero 10 hn
  rw [List.head?_map, List.head?_reverse, List.getLast?_eq_some_getLast hne]
  simp only [Option.map_some, ne_eq, Option.some.injEq]
  have hlt : (Nat.digits 10 n).getLast hne < 10 := Nat.digits_lt_base (by omega) (List.getLast_mem hne)
  generalize (Nat.digits 10 n).getLast hne = k at hl hlt
  have key : ∀ k, k < 10 → k ≠ 0 → ¬ Char.ofNat (48 + k) = '0' := by decide
  exact key k hlt hl

theorem iterText_fmt7 (i : Nat) : IterText (fmt7 i) := by
  refine ⟨fun c hc => ?_, ?_⟩
  · obtain ⟨k, hk, rfl⟩ := Verif.Ckpt.fmt7_digit i c hc
    exact (Verif.Ckpt.digit_facts k hk).1
  · by_cases h : ((Nat.digits 10 i).reverse.map fun k => Char.ofNat (48 + k)).length ≤ 7
    · left
      unfold fmt7
      simp only [List.length_append, List.length_replicate] at h ⊢
      omega
    · right
      have e : fmt7 i = (Nat.digits 10 i).reverse.map fun k => Char.ofNat (48 + k) := by
        unfold fmt7
        simp only []
        rw [show 7 - ((Nat.digits 10 i).reverse.map fun k => Char.ofNat (48 + k)).length = 0 by omega]
        rfl
      rw [e]
      refine ⟨by omega, head_nonzero i ?_⟩
      rintro rfl
      simp at h

theorem natText_str (r : Nat) : NatText (str r) := by
  unfold str
  by_cases h : r = 0
  · rw [if_pos h]
    refine ⟨?_, .inl rfl⟩
    intro c hc
    rw [List.mem_singleton] at hc
    subst hc; rfl
  · rw [if_neg h]
    refine ⟨digitText r, .inr ⟨?_, head_nonzero r h⟩⟩
    intro h'
    rw [List.map_eq_nil_iff, List.reverse_eq_nil_iff] at h'
    exact Nat.digits_ne_nil_iff_ne_zero.mpr h h'

theorem toInt_str (r : Nat) : toInt (str r) = r := by
  unfold str
  by_cases h : r = 0
  · rw [if_pos h, h]; rfl
  · rw [if_neg h]
    unfold toInt
    rw [List.foldl_map, List.foldl_reverse]
    have h1 : ∀ (l : List Nat), (∀ k ∈ l, k < 10) →
        l.foldr (fun k a => 10 * a + ((Char.ofNat (48 + k)).toNat - 48)) 0 = Nat.ofDigits 10 l := by
      intro l
      induction l with
      | nil => intro _; rfl
      | cons k l ih =>
        intro h
        rw [List.foldr_cons, ih (fun k hk => h k (List.mem_cons_of_mem _ hk)), Nat.ofDigits_cons,
          (Verif.Ckpt.digit_facts k (h k (List.mem_cons_self ..))).2.2.2]
        omega
    rw [h1 _ (fun k hk => Nat.digits_lt_base (by omega) hk), Nat.ofDigits_digits]

/-! ### Names -/

theorem match_name (i : Nat) (g : Name) (r : Nat) (hg : Hex32 g) : matchSidecar (sidecarName i g r) = some (fmt7 i, g, str r) :=
  (C100_grammar _ _ _ _).mpr ⟨rfl, iterText_fmt7 i, hg, natText_str r⟩

/-- **C100 (names).** For every iteration, rank and 32-digit generation token the trainer forms a name, the name passes the check, and
the name gives the three values back. -/
theorem C100_name_accepted (i : Nat) (g : Name) (r : Nat) (hg : Hex32 g) :
    ∃ n, runtimeBasename i g r = .ok n ∧ ∃ it rk, matchSidecar n = some (it, g, rk) ∧ toInt it = i ∧ toInt rk = r := by
  refine ⟨sidecarName i g r, ?_, fmt7 i, str r, match_name i g r hg, Verif.Ckpt.toInt_fmt7 i, toInt_str r⟩
  unfold runtimeBasename
  rw [match_name i g r hg]
  unfold groupsAre
  simp [Verif.Ckpt.toInt_fmt7, toInt_str]

/-- **C100 (no bad token).** A generation token outside the grammar is refused: no name is formed. -/
theorem C100_token_checked (i : Nat) (g : Name) (r : Nat) (n : Name) (h : runtimeBasename i g r = .ok n) : Hex32 g := by
  unfold runtimeBasename at h
  by_cases hc : groupsAre (matchSidecar (sidecarName i g r)) i g r = false
  · rw [if_pos hc] at h; simp at h
  · cases hm : matchSidecar (sidecarName i g r) with
    | none => rw [hm] at hc; exact absurd rfl hc
    | some t =>
      obtain ⟨a, b, c⟩ := t
      rw [hm] at hc
      simp only [groupsAre, Bool.and_eq_false_iff, decide_eq_false_iff_not, not_or, not_not] at hc
      have := (C100_grammar _ _ _ _).mp hm
      rw [← hc.2]
      exact this.2.2.1

/-- **C100 (distinct).** Two sidecars of different iteration, generation or rank never share a name. -/
theorem C100_name_injective (i i' : Nat) (g g' : Name) (r r' : Nat) (hg : Hex32 g) (hg' : Hex32 g')
    (h : sidecarName i g r = sidecarName i' g' r') : i = i' ∧ g = g' ∧ r = r' := by
  have h1 := match_name i g r hg
  rw [h, match_name i' g' r' hg'] at h1
  simp only [Option.some.injEq, Prod.mk.injEq] at h1
  refine ⟨?_, h1.2.1.symm, ?_⟩
  · have := congrArg toInt h1.1
    rw [Verif.Ckpt.toInt_fmt7, Verif.Ckpt.toInt_fmt7] at this
    exact this.symm
  · have := congrArg toInt h1.2.2
    rw [toInt_str, toInt_str] at this
    exact this.symm

/-- **C100 (temporary names).** A temporary name is never a sidecar name, so an interrupted write is never read as a sidecar. -/
theorem C100_temp_not_sidecar (i : Nat) (g : Name) (r pid : Nat) (nonce : Name) : matchSidecar (tempName i g r pid nonce) = none := by
  cases h : matchSidecar (tempName i g r pid nonce) with
  | none => rfl
  | some t =>
    obtain ⟨a, b, c⟩ := t
    have := ((C100_grammar _ _ _ _).mp h).1
    have h0 := congrArg List.head? this
    have e1 : ∀ l : Name, (".runtime-tmp_".toList ++ l).head? = some '.' := fun l => rfl
    have e2 : ∀ l : Name, ("runtime_".toList ++ l).head? = some 'r' := fun l => rfl
    unfold tempName at h0
    simp only [List.append_assoc] at h0
    rw [e1, e2] at h0
    exact absurd h0 (by decide)

/-! ### Publishing -/

/-- **C100 (crash safety).** At whatever point the process dies, and whatever the temporary file goes through while it is written, every
name other than the temporary one has the content it had before, except that the final name may have appeared — only if it did not
exist — with the complete content. -/
theorem C100_crash (d : Dir) (temp final : Name) (mids : List Bytes) (bytes : Bytes) (fault : Fault) :
    ∀ s, s ∈ (publish d temp final mids bytes fault).seen ∨ s = (publish d temp final mids bytes fault).dir → ∀ n, n ≠ temp →
      s n = d n ∨ (n = final ∧ d n = none ∧ s n = some bytes) := by
  intro s hs n hn
  have hset : ∀ b, (d.set temp b) n = d n := fun b => by unfold Dir.set; rw [if_neg hn]
  have hun : ∀ e : Dir, (e.unset temp) n = e n := fun e => by unfold Dir.unset; rw [if_neg hn]
  have hw : s ∈ [d, d.set temp []] ++ mids.map (d.set temp) → s n = d n := by
    intro h
    rcases List.mem_append.mp h with h | h
    · rcases List.mem_cons.mp h with rfl | h
      · rfl
      · rw [List.mem_singleton] at h; subst h; exact hset _
    · obtain ⟨b, _, rfl⟩ := List.mem_map.mp h
      exact hset b
  unfold publish at hs
  by_cases h1 : (d temp).isSome
  · rw [if_pos h1] at hs
    simp only [List.mem_singleton, or_self] at hs
    subst hs; exact .inl rfl
  rw [if_neg h1] at hs
  simp only [] at hs
  by_cases h2 : fault = .save
  · rw [if_pos h2] at hs
    left
    rcases hs with hs | hs
    · rcases List.mem_append.mp hs with hs | hs
      · exact hw hs
      · rw [List.mem_singleton] at hs; subst hs; exact hun d
    · subst hs; exact hun d
  rw [if_neg h2] at hs
  by_cases h3 : (d final).isSome ∨ fault = .link ∨ final = temp
  · rw [if_pos h3] at hs
    left
    rcases hs with hs | hs
    · rcases List.mem_append.mp hs with hs | hs
      · exact hw hs
      · rcases List.mem_cons.mp hs with rfl | hs
        · exact hset _
        · rw [List.mem_singleton] at hs; subst hs; exact (hun _).trans (hset _)
    · subst hs; exact (hun _).trans (hset _)
  rw [if_neg h3] at hs
  have hf : d final = none := by
    cases h : d final with
    | none => rfl
    | some _ => exact absurd (.inl (by rw [h]; rfl)) h3
  have hl : ((d.set temp bytes).set final bytes) n = d n ∨ (n = final ∧ d n = none ∧ ((d.set temp bytes).set final bytes) n = some bytes) := by
    by_cases h : n = final
    · subst h
      exact .inr ⟨rfl, hf, if_pos rfl⟩
    · left
      show (if n = final then some bytes else (d.set temp bytes) n) = d n
      rw [if_neg h]; exact hset _
  rcases hs with hs | hs
  · rcases List.mem_append.mp hs with hs | hs
    · exact .inl (hw hs)
    · rcases List.mem_cons.mp hs with rfl | hs
      · exact .inl (hset _)
      · rcases List.mem_cons.mp hs with rfl | hs
        · exact hl
        · rw [List.mem_singleton] at hs; subst hs
          rw [hun]; exact hl
  · subst hs
    show (((d.set temp bytes).set final bytes).unset temp) n = d n ∨ (n = final ∧ d n = none ∧ (((d.set temp bytes).set final bytes).unset temp) n = some bytes)
    rw [hun]; exact hl

/-- **C100 (never replaced).** Publishing over an existing name raises and leaves that file, and every other, exactly as it was. -/
theorem C100_no_overwrite (d : Dir) (temp final : Name) (mids : List Bytes) (bytes : Bytes) (fault : Fault) (hex : (d final).isSome) :
    (publish d temp final mids bytes fault).error ≠ none ∧ (publish d temp final mids bytes fault).dir = d := by
  have hun : (d temp).isSome = false → d.unset temp = d := by
    intro h
    funext n
    unfold Dir.unset
    split_ifs with hn
    · subst hn; cases hd : d n with
      | none => rfl
      | some _ => rw [hd] at h; simp at h
    · rfl
  have hun2 : (d temp).isSome = false → (d.set temp bytes).unset temp = d := by
    intro h
    funext n
    unfold Dir.unset Dir.set
    split_ifs with hn
    · subst hn; cases hd : d n with
      | none => rfl
      | some _ => rw [hd] at h; simp at h
    · rfl
  unfold publish
  by_cases h1 : (d temp).isSome
  · rw [if_pos h1]; exact ⟨by simp, rfl⟩
  rw [if_neg h1]
  simp only []
  by_cases h2 : fault = .save
  · rw [if_pos h2]; exact ⟨by simp, hun (by simpa using h1)⟩
  rw [if_neg h2, if_pos (.inl hex)]
  exact ⟨by simp, hun2 (by simpa using h1)⟩

/-- **C100 (success).** When no error is raised the final name holds the complete content, the temporary name is gone, and nothing else
changed; and with a fresh temporary name, a fresh final name and no failing call, no error is raised. -/
theorem C100_success (d : Dir) (temp final : Name) (mids : List Bytes) (bytes : Bytes) (fault : Fault) :
    ((publish d temp final mids bytes fault).error = none ↔ d temp = none ∧ d final = none ∧ final ≠ temp ∧ fault = .none) ∧
    ((publish d temp final mids bytes fault).error = none →
      (publish d temp final mids bytes fault).dir final = some bytes ∧ (publish d temp final mids bytes fault).dir temp = none ∧
      ∀ n, n ≠ final → (publish d temp final mids bytes fault).dir n = d n) := by
  unfold publish
  by_cases h1 : (d temp).isSome
  · rw [if_pos h1]
    refine ⟨⟨by simp, ?_⟩, by simp⟩
    rintro ⟨h, _⟩
    rw [h] at h1; simp at h1
  rw [if_neg h1]
  have ht : d temp = none := by simpa using h1
  simp only []
  by_cases h2 : fault = .save
  · rw [if_pos h2]
    refine ⟨⟨by simp, ?_⟩, by simp⟩
    rintro ⟨_, _, _, h⟩
    rw [h] at h2; simp at h2
  rw [if_neg h2]
  by_cases h3 : (d final).isSome ∨ fault = .link ∨ final = temp
  · rw [if_pos h3]
    refine ⟨⟨by simp, ?_⟩, by simp⟩
    rintro ⟨_, hf, hne, h⟩
    rcases h3 with h3 | h3 | h3
    · rw [hf] at h3; simp at h3
    · rw [h] at h3; simp at h3
    · exact absurd h3 hne
  rw [if_neg h3]
  have h4 : d final = none ∧ fault ≠ .link ∧ final ≠ temp := by
    simpa only [not_or, Option.isSome_iff_ne_none, ne_eq, not_not] using h3
  obtain ⟨hf, hlk, hne⟩ := h4
  refine ⟨?_, fun _ => ⟨?_, ?_, ?_⟩⟩
  · cases fault <;> simp_all
  · show (if final = temp then none else (if final = final then some bytes else _)) = _
    rw [if_neg hne, if_pos rfl]
  · show (if temp = temp then none else _) = _
    rw [if_pos rfl]
  · intro n hn
    show (if n = temp then none else if n = final then some bytes else if n = temp then some bytes else d n) = d n
    by_cases h : n = temp
    · rw [if_pos h, h, ht]
    · rw [if_neg h, if_neg hn, if_neg h]

/-- **C100 (clean-up).** Whenever the code returns or raises (rather than crashing), a temporary file it created is gone. -/
theorem C100_cleanup (d : Dir) (temp final : Name) (mids : List Bytes) (bytes : Bytes) (fault : Fault) (h : d temp = none) :
    (publish d temp final mids bytes fault).dir temp = none := by
  have hu : ∀ e : Dir, (e.unset temp) temp = none := fun e => if_pos rfl
  unfold publish
  rw [if_neg (by rw [h]; simp)]
  simp only []
  by_cases h2 : fault = .save
  · rw [if_pos h2]; exact hu _
  rw [if_neg h2]
  by_cases h3 : (d final).isSome ∨ fault = .link ∨ final = temp
  · rw [if_pos h3]; exact hu _
  · rw [if_neg h3]; exact hu _

end Verif.Sidecar
