import Verif.Search.Model
import Mathlib.Tactic.Linarith
import Mathlib.Tactic.SplitIfs
import Mathlib.Data.Finset.Card
import Mathlib.Data.Finset.Range
import Mathlib.Data.List.GetD

namespace Verif.Search

/-! ### argmin -/

theorem argminFrom_spec (l : List Score) : ∀ (pre : List Score) (best : Score) (bi : Nat),
    pre[bi]? = some best → (∀ (j : Nat) (s : Score), pre[j]? = some s → best ≤ s ∧ (j < bi → best < s)) →
    ∃ m, (pre ++ l)[argminFrom best bi pre.length l]? = some m ∧
      ∀ (j : Nat) (s : Score), (pre ++ l)[j]? = some s → m ≤ s ∧ (j < argminFrom best bi pre.length l → m < s) := by
  induction l with
  | nil => intro pre best bi h1 h2; exact ⟨best, by simpa [argminFrom] using h1, by simpa [argminFrom] using h2⟩
  | cons a l ih =>
    intro pre best bi h1 h2
    have hpre : pre ++ a :: l = (pre ++ [a]) ++ l := by simp
    have hlen : (pre ++ [a]).length = pre.length + 1 := by simp
    have hbi : bi < pre.length := by
      by_contra h
      rw [List.getElem?_eq_none (by omega)] at h1
      cases h1
    rw [argminFrom]
    by_cases h : a < best
    · rw [if_pos h, hpre, ← hlen]
      apply ih
      · simp
      · intro j s hj
        rcases Nat.lt_trichotomy j pre.length with hj' | hj' | hj'
        · rw [List.getElem?_append_left hj'] at hj
          have := (h2 j s hj).1
          exact ⟨le_trans h.le this, fun _ => lt_of_lt_of_le h this⟩
        · subst hj'
          simp at hj
          rw [← hj]
          exact ⟨le_refl _, fun h => absurd h (lt_irrefl _)⟩
        · rw [List.getElem?_eq_none (by simp; omega)] at hj
          cases hj
    · rw [if_neg h, hpre, ← hlen]
      apply ih
      · rw [List.getElem?_append_left hbi]; exact h1
      · intro j s hj
        rcases Nat.lt_trichotomy j pre.length with hj' | hj' | hj'
        · rw [List.getElem?_append_left hj'] at hj
          exact h2 j s hj
        · subst hj'
          simp at hj
          rw [← hj]
          exact ⟨le_of_not_gt h, fun h => by omega⟩
        · rw [List.getElem?_eq_none (by simp; omega)] at hj
          cases hj

theorem argmin_spec (l : List Score) (h : l ≠ []) :
    ∃ m, l[argmin l]? = some m ∧ ∀ (j : Nat) (s : Score), l[j]? = some s → m ≤ s ∧ (j < argmin l → m < s) := by
  cases l with
  | nil => exact absurd rfl h
  | cons a l =>
    have := argminFrom_spec l [a] a 0 rfl (by
      intro j s hj
      cases j with
      | zero => simp at hj; rw [← hj]; exact ⟨le_refl _, fun h => by omega⟩
      | succ j => simp at hj)
    simpa [argmin] using this

theorem argmin_lt (l : List Score) (h : l ≠ []) : argmin l < l.length := by
  obtain ⟨m, hm, -⟩ := argmin_spec l h
  by_contra hc
  rw [List.getElem?_eq_none (by omega)] at hm
  cases hm

/-! ### the shortlist -/

theorem pick_lt (k : Nat) : ∀ l : List Score, l ≠ [] → ∀ i ∈ pick k l, i < l.length := by
  induction k with
  | zero => intro l _ i hi; cases hi
  | succ k ih =>
    intro l hl i hi
    rw [pick] at hi
    rcases List.mem_cons.1 hi with rfl | hi
    · exact argmin_lt l hl
    · have := ih (l.set (argmin l) ⊤) (by
        intro h
        apply hl
        rw [← List.length_eq_zero_iff, ← List.length_set (as := l) (i := argmin l) (a := ⊤), h]
        rfl) i hi
      rwa [List.length_set] at this

theorem pick_length (k : Nat) : ∀ l : List Score, (pick k l).length = k := by
  induction k with
  | zero => intro l; rfl
  | succ k ih => intro l; rw [pick, List.length_cons, ih]

/-- entry `j` comes before entry `i` in the order by score and position -/
def Before (l : List Score) (i j : Nat) : Prop := ∃ a b, l[j]? = some a ∧ l[i]? = some b ∧ (a < b ∨ (a = b ∧ j < i))

open Classical in
/-- an entry with fewer than `k` entries before it is picked -/
theorem mem_pick (k : Nat) : ∀ (l : List Score) (i : Nat) (s : Score), l[i]? = some s → s ≠ ⊤ →
    ((Finset.range l.length).filter (fun j => Before l i j)).card < k → i ∈ pick k l := by
  induction k with
  | zero => intro l i s _ _ h; omega
  | succ k ih =>
    intro l i s hi hs hcard
    have hl : l ≠ [] := by rintro rfl; simp at hi
    obtain ⟨m, hm, hmin⟩ := argmin_spec l hl
    obtain ⟨a, ha⟩ : ∃ a, a = argmin l := ⟨_, rfl⟩
    rw [pick, ← ha]
    rw [← ha] at hm hmin
    by_cases hai : i = a
    · rw [hai]; exact List.mem_cons_self ..
    · apply List.mem_cons_of_mem
      have hbef : Before l i a := by
        obtain ⟨h1, h2⟩ := hmin i s hi
        refine ⟨m, s, hm, hi, ?_⟩
        rcases lt_or_eq_of_le h1 with h | h
        · exact Or.inl h
        · refine Or.inr ⟨h, ?_⟩
          by_contra hc
          have := h2 (by omega)
          rw [h] at this
          exact lt_irrefl _ this
      have hal : a < l.length := by rw [ha]; exact argmin_lt l hl
      have hi' : (l.set a ⊤)[i]? = some s := by
        rw [List.getElem?_set_ne (by omega)]; exact hi
      refine ih (l.set a ⊤) i s hi' hs ?_
      have hsub : (Finset.range (l.set a ⊤).length).filter (fun j => Before (l.set a ⊤) i j) ⊆
          ((Finset.range l.length).filter (fun j => Before l i j)).erase a := by
        intro j hj
        rw [Finset.mem_filter, Finset.mem_range, List.length_set] at hj
        obtain ⟨hj1, x, y, hx, hy, hxy⟩ := hj
        rw [hi'] at hy
        cases hy
        have hja : j ≠ a := by
          rintro rfl
          rw [List.getElem?_set_self hal] at hx
          cases hx
          rcases hxy with h | ⟨h, -⟩
          · exact not_top_lt h
          · exact hs h.symm
        rw [List.getElem?_set_ne (by omega)] at hx
        rw [Finset.mem_erase, Finset.mem_filter, Finset.mem_range]
        exact ⟨hja, hj1, x, s, hx, hi, hxy⟩
      have hin : a ∈ (Finset.range l.length).filter (fun j => Before l i j) := by
        rw [Finset.mem_filter, Finset.mem_range]; exact ⟨hal, hbef⟩
      have h1 := Finset.card_le_card hsub
      rw [Finset.card_erase_of_mem hin] at h1
      have h2 := Finset.card_pos.2 ⟨a, hin⟩
      omega

/-! ### the reduction -/

/-- `b` is the best entry of `l` -/
def IsBest (l : List (Score × Nat)) (b : Score × Nat) : Prop :=
  b ∈ l ∧ ∀ p ∈ l, b.1 < p.1 ∨ (b.1 = p.1 ∧ b.2 ≤ p.2)

theorem foldl_min_le {α : Type} [LinearOrder α] (l : List α) : ∀ a : α, l.foldl min a ≤ a ∧ (∀ x ∈ l, l.foldl min a ≤ x) ∧
    (l.foldl min a = a ∨ l.foldl min a ∈ l) := by
  induction l with
  | nil => intro a; exact ⟨le_refl _, by simp, Or.inl rfl⟩
  | cons b l ih =>
    intro a
    rw [List.foldl_cons]
    obtain ⟨h1, h2, h3⟩ := ih (min a b)
    refine ⟨le_trans h1 (min_le_left _ _), ?_, ?_⟩
    · intro x hx
      rcases List.mem_cons.1 hx with rfl | hx
      · exact le_trans h1 (min_le_right _ _)
      · exact h2 x hx
    · rcases h3 with h | h
      · rw [h]
        rcases min_choice a b with h' | h'
        · exact Or.inl h'
        · right; rw [h']; exact List.mem_cons_self ..
      · exact Or.inr (List.mem_cons_of_mem _ h)

theorem localBest_isBest (l : List (Score × Nat)) (hne : l ≠ []) (hc : ∀ p ∈ l, p.2 ≤ intMax) : IsBest l (localBest l) := by
  obtain ⟨h1, h2, h3⟩ := foldl_min_le (l.map Prod.fst) (⊤ : Score)
  obtain ⟨m, hm⟩ : ∃ m, m = minScore (l.map Prod.fst) := ⟨_, rfl⟩
  have hm2 : ∀ p ∈ l, m ≤ p.1 := by
    intro p hp
    rw [hm]
    exact h2 p.1 (List.mem_map.2 ⟨p, hp, rfl⟩)
  have hm3 : ∃ p ∈ l, p.1 = m := by
    rcases h3 with h | h
    · obtain ⟨p, rest, rfl⟩ := List.exists_cons_of_ne_nil hne
      refine ⟨p, List.mem_cons_self .., ?_⟩
      have := hm2 p (List.mem_cons_self ..)
      have ht : m = ⊤ := by rw [hm]; exact h
      rw [ht] at this ⊢
      exact top_le_iff.1 this
    · obtain ⟨p, hp, h⟩ := List.mem_map.1 h
      exact ⟨p, hp, by rw [hm]; exact h⟩
  obtain ⟨k1, k2, k3⟩ := foldl_min_le (l.map (fun p => if p.1 = m then p.2 else intMax)) intMax
  obtain ⟨c, hcd⟩ : ∃ c, c = minCode l m := ⟨_, rfl⟩
  have hcle : ∀ p ∈ l, p.1 = m → c ≤ p.2 := by
    intro p hp hpm
    have := k2 p.2 (List.mem_map.2 ⟨p, hp, by rw [if_pos hpm]⟩)
    rw [hcd]; exact this
  have hcmem : (m, c) ∈ l := by
    obtain ⟨p, hp, hpm⟩ := hm3
    have hcase : c = intMax ∨ ∃ q ∈ l, q.1 = m ∧ q.2 = c := by
      rcases k3 with h | h
      · left; rw [hcd]; exact h
      · obtain ⟨q, hq, h⟩ := List.mem_map.1 h
        by_cases hqm : q.1 = m
        · rw [if_pos hqm] at h
          right; exact ⟨q, hq, hqm, by rw [h, hcd]; rfl⟩
        · rw [if_neg hqm] at h
          left; rw [hcd]; exact h.symm
    rcases hcase with h | ⟨q, hq, hqm, hqc⟩
    · have h4 := hcle p hp hpm
      have h5 := hc p hp
      have : p.2 = c := by omega
      rw [← hpm, ← this]
      exact hp
    · rw [← hqm, ← hqc]
      exact hq
  have hlb : localBest l = (m, c) := by unfold localBest; rw [← hm, ← hcd]
  rw [hlb]
  refine ⟨hcmem, ?_⟩
  intro p hp
  rcases lt_or_eq_of_le (hm2 p hp) with h | h
  · exact Or.inl h
  · exact Or.inr ⟨h, hcle p hp h.symm⟩

theorem better_iff (a b : Score × Nat) : better a b = true ↔ (a.1 < b.1 ∨ (a.1 = b.1 ∧ a.2 < b.2)) := by
  simp [better]

theorem not_better (a b : Score × Nat) (h : ¬ better a b = true) : b.1 < a.1 ∨ (b.1 = a.1 ∧ b.2 ≤ a.2) := by
  rw [better_iff] at h
  rcases lt_trichotomy a.1 b.1 with h' | h' | h'
  · exact absurd (Or.inl h') h
  · right
    refine ⟨h'.symm, ?_⟩
    by_contra hc
    exact h (Or.inr ⟨h', by omega⟩)
  · exact Or.inl h'

theorem lex_trans {a b c : Score × Nat} (h1 : a.1 < b.1 ∨ (a.1 = b.1 ∧ a.2 ≤ b.2)) (h2 : b.1 < c.1 ∨ (b.1 = c.1 ∧ b.2 ≤ c.2)) :
    a.1 < c.1 ∨ (a.1 = c.1 ∧ a.2 ≤ c.2) := by
  rcases h1 with h1 | ⟨h1, h1'⟩
  · rcases h2 with h2 | ⟨h2, -⟩
    · exact Or.inl (lt_trans h1 h2)
    · exact Or.inl (h2 ▸ h1)
  · rcases h2 with h2 | ⟨h2, h2'⟩
    · exact Or.inl (h1 ▸ h2)
    · exact Or.inr ⟨h1.trans h2, by omega⟩

/-- best so far: nothing yet, or the best of what was seen -/
def SoFar (l : List (Score × Nat)) (b : Score × Nat) : Prop := (l = [] ∧ b = (⊤, 0)) ∨ IsBest l b

theorem updateBest_soFar (l m : List (Score × Nat)) (b c : Score × Nat) (h : SoFar l b) (hm : IsBest m c) (hf : c.1 ≠ ⊤) :
    SoFar (l ++ m) (updateBest b c) := by
  right
  unfold updateBest
  rcases h with ⟨rfl, rfl⟩ | h
  · have : better c (⊤, 0) = true := by
      rw [better_iff]; left; exact lt_top_iff_ne_top.2 hf
    rw [if_pos this]
    simpa using hm
  · by_cases hb : better c b = true
    · rw [if_pos hb]
      have hb' : c.1 < b.1 ∨ (c.1 = b.1 ∧ c.2 ≤ b.2) := by
        rw [better_iff] at hb
        rcases hb with h | ⟨h, h'⟩
        · exact Or.inl h
        · exact Or.inr ⟨h, h'.le⟩
      refine ⟨List.mem_append.2 (Or.inr hm.1), fun p hp => ?_⟩
      rcases List.mem_append.1 hp with hp | hp
      · exact lex_trans hb' (h.2 p hp)
      · exact hm.2 p hp
    · rw [if_neg hb]
      refine ⟨List.mem_append.2 (Or.inl h.1), fun p hp => ?_⟩
      rcases List.mem_append.1 hp with hp | hp
      · exact h.2 p hp
      · exact lex_trans (not_better _ _ hb) (hm.2 p hp)

/-- the candidates with their scores -/
def scored (exact : Nat → ℚ) (l : List Nat) : List (Score × Nat) := l.map (fun c => ((exact c : Score), c))

theorem scored_local (exact : Nat → ℚ) (l : List Nat) (hne : l ≠ []) (hc : ∀ c ∈ l, c ≤ intMax) :
    IsBest (scored exact l) (localBest (scored exact l)) ∧ (localBest (scored exact l)).1 ≠ ⊤ := by
  have h := localBest_isBest (scored exact l) (by simpa [scored] using hne) (by
    intro p hp
    obtain ⟨c, h, rfl⟩ := List.mem_map.1 hp
    exact hc c h)
  refine ⟨h, ?_⟩
  obtain ⟨c, -, he⟩ := List.mem_map.1 h.1
  rw [← he]
  exact WithTop.coe_ne_top

theorem foldl_best (exact : Nat → ℚ) (bs : List (List Nat)) : ∀ (seen : List Nat) (b : Score × Nat),
    (∀ l ∈ bs, l ≠ []) → (∀ l ∈ bs, ∀ c ∈ l, c ≤ intMax) → SoFar (scored exact seen) b →
    SoFar (scored exact (seen ++ bs.flatten))
      (bs.foldl (fun best b => updateBest best (localBest (b.map (fun c => ((exact c : Score), c))))) b) := by
  induction bs with
  | nil => intro seen b _ _ h; simpa using h
  | cons l bs ih =>
    intro seen b hne hc h
    rw [List.foldl_cons, List.flatten_cons, ← List.append_assoc]
    obtain ⟨h1, h2⟩ := scored_local exact l (hne l (List.mem_cons_self ..)) (hc l (List.mem_cons_self ..))
    apply ih _ _ (fun m hm => hne m (List.mem_cons_of_mem _ hm)) (fun m hm => hc m (List.mem_cons_of_mem _ hm))
    have := updateBest_soFar _ _ _ _ h h1 h2
    unfold scored at this ⊢
    rw [List.map_append]
    exact this

theorem blocks_flatten (n : Nat) (hn : 0 < n) (l : List Nat) : (blocks n l).flatten = l := by
  have key : ∀ m : Nat, ((List.range m).map (fun b => (l.drop (b * n)).take n)).flatten = l.take (m * n) := by
    intro m
    induction m with
    | zero => simp
    | succ m ih =>
      rw [List.range_succ, List.map_append, List.flatten_append, ih]
      simp only [List.map_cons, List.map_nil, List.flatten_cons, List.flatten_nil, List.append_nil]
      rw [Nat.succ_mul, List.take_add]
  unfold blocks
  rw [key, List.take_of_length_le]
  unfold cdiv
  have := Nat.div_add_mod (l.length + n - 1) n
  have h2 := Nat.mod_lt (l.length + n - 1) hn
  rw [Nat.mul_comm]
  omega

theorem blocks_ne_nil (n : Nat) (hn : 0 < n) (l : List Nat) : ∀ b ∈ blocks n l, b ≠ [] := by
  intro b hb
  obtain ⟨k, hk, rfl⟩ := List.mem_map.1 hb
  rw [List.mem_range] at hk
  have hlt : k * n < l.length := by
    unfold cdiv at hk
    have h1 : (k + 1) * n ≤ l.length + n - 1 := (Nat.le_div_iff_mul_le hn).1 hk
    rw [Nat.succ_mul] at h1
    omega
  intro h
  have h1 := congrArg List.length h
  rw [List.length_take, List.length_drop, List.length_nil] at h1
  omega

theorem blocks_mem (n : Nat) (l : List Nat) : ∀ b ∈ blocks n l, ∀ c ∈ b, c ∈ l := by
  intro b hb c hc
  obtain ⟨k, -, rfl⟩ := List.mem_map.1 hb
  exact List.mem_of_mem_drop (List.mem_of_mem_take hc)

theorem exactSearch_best (exact : Nat → ℚ) (block : Nat) (hb : 0 < block) (cands : List Nat) (hne : cands ≠ [])
    (hc : ∀ c ∈ cands, c ≤ intMax) :
    exactSearch exact block cands ∈ cands ∧ ∀ c ∈ cands, exact (exactSearch exact block cands) < exact c ∨
      (exact (exactSearch exact block cands) = exact c ∧ exactSearch exact block cands ≤ c) := by
  have h := foldl_best exact (blocks block cands) [] (⊤, 0) (blocks_ne_nil block hb cands)
    (fun l hl c hcl => hc c (blocks_mem block cands l hl c hcl)) (Or.inl ⟨rfl, rfl⟩)
  rw [List.nil_append, blocks_flatten block hb] at h
  unfold exactSearch
  rcases h with ⟨h, -⟩ | h
  · exact absurd (by simpa [scored] using h) hne
  · obtain ⟨h1, h2⟩ := h
    obtain ⟨c0, hc0, he⟩ := List.mem_map.1 h1
    rw [← he] at h2 ⊢
    refine ⟨hc0, fun c hcm => ?_⟩
    have := h2 ((exact c : Score), c) (List.mem_map.2 ⟨c, hcm, rfl⟩)
    dsimp only at this ⊢
    rcases this with h | ⟨h, h'⟩
    · exact Or.inl (WithTop.coe_lt_coe.1 h)
    · exact Or.inr ⟨WithTop.coe_inj.1 h, h'⟩

end Verif.Search
