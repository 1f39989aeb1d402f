import Verif.Export.TablesLemmas
import Verif.Export.Props52

/-
C72: the Mix6/Mix7/Mix8 feature tables give every visible line window its own row, and the row holds
the feature of exactly that window.
-/
namespace Verif.Export

/-- What a position sees of its line: `half` cells to each side; `none` is beyond the border. -/
def windowOf (half : Nat) (line : List Nat) (c : Nat) : List (Option Nat) :=
  (List.range (2 * half + 1)).map fun k => if half ≤ c + k then line[c + k - half]? else none

/-- Cells missing in the window on the low side / on the high side. -/
def missingLow (half c : Nat) : Nat := half - c
def missingHigh (half len c : Nat) : Nat := half - (len - 1 - c)

/-- The visible cells. -/
def visible (half : Nat) (line : List Nat) (c : Nat) : List Nat :=
  (line.drop (c - half)).take (2 * half + 1 - missingLow half c - missingHigh half line.length c)

/-- Row number the engine computes for a window: one of three formulas depending on which sides are
cut (the comments of the table layout in mixnet.py). -/
def engineRow (half : Nat) (line : List Nat) (c : Nat) : Nat :=
  let L := 2 * half + 1
  let l := missingLow half c
  let r := missingHigh half line.length c
  let cells := base3Value (visible half line c)
  let ones (a n : Nat) : Nat := ((List.range n).map fun i => 3 ^ (a + i)).sum
  if l = 0 then cells + ones (L + 1 - r) r
  else if r = 0 then cells * 3 ^ l + 2 * 3 ^ L + ones 0 (l - 1)
  else cells * 3 ^ l + 3 * 3 ^ L + ones 0 (l - 1) + ones (L + 1 - r) (r - 1)

/-! ### Codes as base-3 numbers -/

theorem dotPow3_eq (cells : List Nat) (e : Nat) : dotPow3 cells e = 3 ^ e * ofDigits 3 cells := by
  induction cells generalizing e with
  | nil => simp [dotPow3, ofDigits]
  | cons c cs ih => simp only [dotPow3, ofDigits, ih]; rw [pow_succ]; ring

theorem ones_eq (a n : Nat) :
    ((List.range n).map fun i => 3 ^ (a + i)).sum = 3 ^ a * ofDigits 3 (List.replicate n 1) := by
  induction n with
  | zero => simp [ofDigits]
  | succ n ih =>
      rw [List.range_succ, List.map_append, List.sum_append, ih]
      have : List.replicate (n + 1) 1 = List.replicate n 1 ++ [1] := by
        rw [List.replicate_succ']
      rw [this, ofDigits_append]
      simp [ofDigits, pow_add]; ring

theorem sumPow3_eq (a b : Nat) : sumPow3 a b = 3 ^ a * ofDigits 3 (List.replicate (b - a) 1) :=
  ones_eq a (b - a)

/-- Row of the window with `l`, `r` cells missing. -/
def mix6Index (L l r : Nat) (cells : List Nat) : Nat :=
  if l = 0 then mix6IndexR L r cells else if r = 0 then mix6IndexL L l cells
  else mix6IndexLR L l r cells

/-- Digits of the row number below `3 ^ L`. -/
def lowDigits (l r : Nat) (cells : List Nat) : List Nat :=
  (if l = 0 then [] else List.replicate (l - 1) 1 ++ [0]) ++ cells
    ++ (if r = 0 then [] else 0 :: List.replicate (r - 1) 1)

/-- Leading digit of the row number. -/
def topDigit (l r : Nat) : Nat :=
  if l = 0 then (if r = 0 then 0 else 1) else (if r = 0 then 2 else 3)

theorem lowDigits_length (L l r : Nat) (cells : List Nat) (h : l + cells.length + r = L) :
    (lowDigits l r cells).length = L := by
  unfold lowDigits
  by_cases hl : l = 0 <;> by_cases hr : r = 0 <;> simp [hl, hr] <;> omega

theorem lowDigits_lt (l r : Nat) (cells : List Nat) (hc : ∀ d ∈ cells, d < 3) :
    ∀ d ∈ lowDigits l r cells, d < 3 := by
  intro d hd
  unfold lowDigits at hd
  simp only [List.mem_append] at hd
  rcases hd with (hd | hd) | hd
  · by_cases hl : l = 0
    · simp [hl] at hd
    · simp [hl, List.mem_replicate] at hd; omega
  · exact hc d hd
  · by_cases hr : r = 0
    · simp [hr] at hd
    · simp [hr, List.mem_replicate] at hd; omega

theorem mix6Index_eq (L l r : Nat) (cells : List Nat) (h : l + cells.length + r = L) :
    mix6Index L l r cells = ofDigits 3 (lowDigits l r cells) + topDigit l r * 3 ^ L := by
  unfold mix6Index lowDigits topDigit
  by_cases hl : l = 0 <;> by_cases hr : r = 0
  · subst hl hr
    simp [mix6IndexR, sumPow3, dotPow3_eq]
  · subst hl
    simp only [if_true, if_neg hr, List.nil_append]
    unfold mix6IndexR
    rw [dotPow3_eq, sumPow3_eq, ofDigits_append, pow_zero, Nat.one_mul]
    have e1 : L + 1 - (L + 1 - r) = (r - 1) + 1 := by omega
    have e2 : L + 1 - r = cells.length + 1 := by omega
    have e3 : L = cells.length + 1 + (r - 1) := by omega
    rw [e1, List.replicate_succ', ofDigits_append]
    simp only [ofDigits, List.length_replicate]
    rw [e2]
    have e4 : 3 ^ L = 3 ^ (cells.length + 1 + (r - 1)) := by rw [← e3]
    rw [e4]
    ring
  · subst hr
    simp only [if_neg hl, if_true, List.append_nil]
    unfold mix6IndexL
    rw [dotPow3_eq, sumPow3_eq, ofDigits_append, ofDigits_append]
    simp only [ofDigits, List.length_append, List.length_replicate, List.length_singleton, pow_zero,
      Nat.sub_zero]
    have e1 : l - 1 + 1 = l := by omega
    rw [e1]; ring
  · simp only [if_neg hl, if_neg hr]
    unfold mix6IndexLR
    rw [dotPow3_eq, sumPow3_eq, sumPow3_eq, ofDigits_append, ofDigits_append, ofDigits_append]
    simp only [ofDigits, List.length_append, List.length_replicate, List.length_singleton, pow_zero,
      Nat.sub_zero]
    have e1 : l - 1 + 1 = l := by omega
    have e2 : L - (L + 1 - r) = r - 1 := by omega
    have e3 : L + 1 - r = l + cells.length + 1 := by omega
    rw [e1, e2, e3]; ring

theorem ofDigits3_inj (a b : List Nat) (hlen : a.length = b.length) (ha : ∀ d ∈ a, d < 3)
    (hb : ∀ d ∈ b, d < 3) (h : ofDigits 3 a = ofDigits 3 b) : a = b := by
  rw [← digit3_ofDigits a ha, ← digit3_ofDigits b hb, h, hlen]

theorem run_inj (a b : Nat) (x y : List Nat)
    (h : List.replicate a 1 ++ 0 :: x = List.replicate b 1 ++ 0 :: y) : a = b ∧ x = y := by
  induction a generalizing b with
  | zero =>
      cases b with
      | zero => simpa using h
      | succ b => simp [List.replicate_succ] at h
  | succ a ih =>
      cases b with
      | zero => simp [List.replicate_succ] at h
      | succ b =>
          simp only [List.replicate_succ, List.cons_append, List.cons.injEq, true_and] at h
          have := ih b h
          exact ⟨by omega, this.2⟩

theorem run_inj_tail (a b : Nat) (x y : List Nat)
    (h : x ++ 0 :: List.replicate a 1 = y ++ 0 :: List.replicate b 1) : a = b ∧ x = y := by
  have := congrArg List.reverse h
  simp only [List.reverse_append, List.reverse_cons, List.reverse_replicate, List.append_assoc,
    List.singleton_append] at this
  obtain ⟨h1, h2⟩ := run_inj a b _ _ this
  exact ⟨h1, by simpa using congrArg List.reverse h2⟩

theorem mix6Index_inj (L l r l' r' : Nat) (cells cells' : List Nat)
    (h : l + cells.length + r = L) (h' : l' + cells'.length + r' = L)
    (hc : ∀ d ∈ cells, d < 3) (hc' : ∀ d ∈ cells', d < 3)
    (he : mix6Index L l r cells = mix6Index L l' r' cells') :
    l = l' ∧ r = r' ∧ cells = cells' := by
  rw [mix6Index_eq L l r cells h, mix6Index_eq L l' r' cells' h'] at he
  have b1 := ofDigits_lt 3 (by norm_num) _ (lowDigits_lt l r cells hc)
  have b2 := ofDigits_lt 3 (by norm_num) _ (lowDigits_lt l' r' cells' hc')
  rw [lowDigits_length L l r cells h] at b1
  rw [lowDigits_length L l' r' cells' h'] at b2
  have htop : topDigit l r = topDigit l' r' := by
    have e1 : (ofDigits 3 (lowDigits l r cells) + topDigit l r * 3 ^ L) / 3 ^ L = topDigit l r := by
      rw [Nat.add_mul_div_right _ _ (by positivity), Nat.div_eq_of_lt b1, Nat.zero_add]
    have e2 : (ofDigits 3 (lowDigits l' r' cells') + topDigit l' r' * 3 ^ L) / 3 ^ L
        = topDigit l' r' := by
      rw [Nat.add_mul_div_right _ _ (by positivity), Nat.div_eq_of_lt b2, Nat.zero_add]
    rw [← e1, ← e2, he]
  rw [htop] at he
  have hlow := ofDigits3_inj _ _
    (by rw [lowDigits_length L l r cells h, lowDigits_length L l' r' cells' h'])
    (lowDigits_lt l r cells hc) (lowDigits_lt l' r' cells' hc') (Nat.add_right_cancel he)
  unfold topDigit at htop
  unfold lowDigits at hlow
  by_cases hl : l = 0 <;> by_cases hr : r = 0 <;> by_cases hl' : l' = 0 <;> by_cases hr' : r' = 0 <;>
    simp only [hl, hr, hl', hr', if_true, if_false, reduceCtorEq] at htop hlow <;>
    first
    | (exfalso; revert htop; decide)
    | skip
  · simp at hlow; subst hl hr hl' hr'; exact ⟨rfl, rfl, hlow⟩
  · obtain ⟨e1, e2⟩ := run_inj_tail (r - 1) (r' - 1) cells cells' (by simpa using hlow)
    exact ⟨by omega, by omega, e2⟩
  · obtain ⟨e1, e2⟩ := run_inj (l - 1) (l' - 1) cells cells' (by simpa using hlow)
    exact ⟨by omega, by omega, e2⟩
  · obtain ⟨e1, e2⟩ := run_inj (l - 1) (l' - 1) _ _ (by simpa using hlow)
    obtain ⟨e3, e4⟩ := run_inj_tail (r - 1) (r' - 1) cells cells' e2
    exact ⟨by omega, by omega, e4⟩

theorem engineRow_eq (half : Nat) (line : List Nat) (c : Nat) :
    engineRow half line c = mix6Index (2 * half + 1) (missingLow half c)
      (missingHigh half line.length c) (visible half line c) := by
  have hl : missingLow half c ≤ half := by unfold missingLow; omega
  have hr : missingHigh half line.length c ≤ half := by unfold missingHigh; omega
  unfold engineRow mix6Index mix6IndexR mix6IndexL mix6IndexLR
  simp only
  rw [base3Value_eq]
  generalize missingLow half c = l at *
  generalize missingHigh half line.length c = r at *
  have e1 : 2 * half + 1 + 1 - (2 * half + 1 + 1 - r) = r := by omega
  have e2 : 2 * half + 1 - (2 * half + 1 + 1 - r) = r - 1 := by omega
  split
  · rw [dotPow3_eq]; unfold sumPow3; rw [e1]; simp
  · split
    · rw [dotPow3_eq]; unfold sumPow3; simp only [Nat.sub_zero]; ring
    · rw [dotPow3_eq]; unfold sumPow3; simp only [Nat.sub_zero, e2]; ring

theorem visible_length (half : Nat) (line : List Nat) (c : Nat) (hc : c < line.length) :
    missingLow half c + (visible half line c).length + missingHigh half line.length c
      = 2 * half + 1 := by
  unfold visible missingLow missingHigh
  rw [List.length_take, List.length_drop]; omega

theorem windowOf_eq (half : Nat) (line : List Nat) (c : Nat) (hc : c < line.length) :
    windowOf half line c = List.replicate (missingLow half c) none
      ++ (visible half line c).map some
      ++ List.replicate (missingHigh half line.length c) none := by
  have hv := visible_length half line c hc
  apply List.ext_getElem
  · simp only [windowOf, List.length_map, List.length_range, List.length_append,
      List.length_replicate]; omega
  · intro k h1 h2
    have hk : k < 2 * half + 1 := by simpa [windowOf] using h1
    simp only [windowOf, List.getElem_map, List.getElem_range]
    rw [List.getElem_append]
    simp only [List.length_append, List.length_replicate, List.length_map]
    by_cases ha : k < missingLow half c
    · rw [dif_pos (by omega), List.getElem_append, dif_pos (by simpa using ha), List.getElem_replicate,
        if_neg (by unfold missingLow at ha; omega)]
    · have hle : half ≤ c + k := by unfold missingLow at ha; omega
      rw [if_pos hle]
      by_cases hb : k < missingLow half c + (visible half line c).length
      · rw [dif_pos hb, List.getElem_append, dif_neg (by simpa using ha)]
        simp only [List.length_replicate, List.getElem_map]
        have hin : c + k - half < line.length := by
          unfold missingHigh missingLow at hv; unfold missingLow at hb; omega
        rw [List.getElem?_eq_getElem hin]
        simp only [visible, List.getElem_take, List.getElem_drop]
        congr 2
        unfold missingLow at *
        omega
      · rw [dif_neg hb, List.getElem_replicate, List.getElem?_eq_none]
        unfold missingHigh missingLow at *
        omega

theorem visible_lt (half : Nat) (line : List Nat) (c : Nat) (h : ∀ d ∈ line, d < 3) :
    ∀ d ∈ visible half line c, d < 3 := fun d hd =>
  h d (List.mem_of_mem_drop (List.mem_of_mem_take hd))

theorem none_run {α : Type} (a b : Nat) (x y : α) (s t : List (Option α))
    (h : List.replicate a none ++ some x :: s = List.replicate b none ++ some y :: t) :
    a = b ∧ some x :: s = some y :: t := by
  induction a generalizing b with
  | zero =>
      cases b with
      | zero => simpa using h
      | succ b => simp [List.replicate_succ] at h
  | succ a ih =>
      cases b with
      | zero => simp [List.replicate_succ] at h
      | succ b =>
          simp only [List.replicate_succ, List.cons_append, List.cons.injEq, true_and] at h
          have := ih b h
          exact ⟨by omega, this.2⟩

theorem window_triple {α : Type} (l r l' r' : Nat) (v v' : List α) (hv : v ≠ []) (hv' : v' ≠ [])
    (h : List.replicate l none ++ v.map some ++ List.replicate r none
      = List.replicate l' none ++ v'.map some ++ List.replicate r' none) :
    l = l' ∧ r = r' ∧ v = v' := by
  have h1 : l = l' := by
    obtain ⟨x, s, rfl⟩ := List.exists_cons_of_ne_nil hv
    obtain ⟨y, t, rfl⟩ := List.exists_cons_of_ne_nil hv'
    simp only [List.map_cons, List.append_assoc, List.cons_append] at h
    exact (none_run l l' x y _ _ h).1
  have h2 : r = r' := by
    have hr := congrArg List.reverse h
    simp only [List.reverse_append, List.reverse_replicate, ← List.map_reverse] at hr
    have n1 : v.reverse ≠ [] := by simpa using hv
    have n2 : v'.reverse ≠ [] := by simpa using hv'
    obtain ⟨x, s, e1⟩ := List.exists_cons_of_ne_nil n1
    obtain ⟨y, t, e2⟩ := List.exists_cons_of_ne_nil n2
    rw [e1, e2] at hr
    simp only [List.map_cons, List.cons_append] at hr
    exact (none_run r r' x y _ _ hr).1
  subst h1 h2
  rw [List.append_assoc, List.append_assoc, List.append_cancel_left_eq,
    List.append_cancel_right_eq] at h
  exact ⟨rfl, rfl, (List.map_injective_iff.2 (Option.some_injective _)) h⟩

/-- **C72** (rows).  For every odd line length, every line over {empty, own, opponent} and every
position on it, the row number is inside the table of `4 * 3 ^ L` rows, and two positions (on any two
lines) get the same row exactly when they see the same window, border included. -/
theorem C72_rows (half : Nat) (line line' : List Nat) (c c' : Nat)
    (hp : IsPattern line.length line) (hp' : IsPattern line'.length line')
    (hc : c < line.length) (hc' : c' < line'.length) :
    engineRow half line c < 4 * 3 ^ (2 * half + 1)
    ∧ (engineRow half line c = engineRow half line' c'
        ↔ windowOf half line c = windowOf half line' c') := by
  have hv := visible_length half line c hc
  have hv' := visible_length half line' c' hc'
  constructor
  · rw [engineRow_eq, mix6Index_eq _ _ _ _ hv]
    have b1 := ofDigits_lt 3 (by norm_num) _
      (lowDigits_lt (missingLow half c) (missingHigh half line.length c) _
        (visible_lt half line c hp.2))
    rw [lowDigits_length _ _ _ _ hv] at b1
    have ht : topDigit (missingLow half c) (missingHigh half line.length c) ≤ 3 := by
      unfold topDigit; split <;> split <;> omega
    nlinarith [Nat.mul_le_mul_right (3 ^ (2 * half + 1)) ht]
  · rw [engineRow_eq, engineRow_eq, windowOf_eq half line c hc, windowOf_eq half line' c' hc']
    constructor
    · intro h
      obtain ⟨e1, e2, e3⟩ := mix6Index_inj _ _ _ _ _ _ _ hv hv' (visible_lt half line c hp.2)
        (visible_lt half line' c' hp'.2) h
      rw [e1, e2, e3]
    · intro h
      have n1 : visible half line c ≠ [] := by
        intro h0; rw [h0] at hv; simp only [List.length_nil] at hv
        unfold missingLow missingHigh at hv; omega
      have n2 : visible half line' c' ≠ [] := by
        intro h0; rw [h0] at hv'; simp only [List.length_nil] at hv'
        unfold missingLow missingHigh at hv'; omega
      obtain ⟨e1, e2, e3⟩ := window_triple _ _ _ _ _ _ n1 n2 h
      rw [e1, e2, e3]

/-! ### The table -/

theorem table_fold {α β : Type} (g : β → α) (key : β → Nat) (ws : List β) (t : Nat → α) (i : Nat) (v : α)
    (hall : ∀ w ∈ ws, key w = i → g w = v) (hex : t i = v ∨ ∃ w ∈ ws, key w = i) :
    ws.foldl (fun t w => fun i => if i = key w then g w else t i) t i = v := by
  induction ws generalizing t with
  | nil => rcases hex with h | ⟨w, hw, -⟩
           · exact h
           · simp at hw
  | cons w ws ih =>
      simp only [List.foldl_cons]
      apply ih
      · exact fun x hx => hall x (by simp [hx])
      · by_cases hk : i = key w
        · left; rw [if_pos hk]; exact hall w (by simp) hk.symm
        · rcases hex with h | ⟨x, hx, hxk⟩
          · left; rw [if_neg hk]; exact h
          · rcases List.mem_cons.1 hx with rfl | hx
            · exact absurd hxk.symm hk
            · right; exact ⟨x, hx, hxk⟩

theorem mem_base3 (n : Nat) (p : List Nat) : p ∈ base3Permutation n ↔ IsPattern n p := by
  constructor
  · intro h
    obtain ⟨i, hi, rfl⟩ := List.getElem_of_mem h
    exact ((C52_line_patterns n).2.1 i hi).1
  · intro h
    exact List.mem_of_getElem? ((C52_line_patterns n).2.2.1 p h)

theorem mix6Writes_mem (half : Nat) (w : Nat × List Nat × Nat) (hw : w ∈ mix6Writes (2 * half + 1)) :
    IsPattern w.2.1.length w.2.1 ∧ w.2.2 < w.2.1.length ∧ w.1 = engineRow half w.2.1 w.2.2 := by
  unfold mix6Writes at hw
  simp only [List.mem_append, List.mem_flatMap, List.mem_map, List.mem_range] at hw
  have hh : (2 * half + 1 + 1) / 2 = half + 1 := by omega
  have hd : (2 * half + 1) / 2 = half := by omega
  rw [hh, hd] at hw
  rcases hw with (⟨r, hr, line, hl, rfl⟩ | ⟨l, ⟨a, ha, rfl⟩, line, hl, rfl⟩) |
    ⟨l, ⟨a, ha, rfl⟩, r, ⟨b, hb, rfl⟩, line, hl, rfl⟩
  · rw [mem_base3] at hl
    have hlen := hl.1
    refine ⟨⟨rfl, hl.2⟩, by show half + r < line.length; omega, ?_⟩
    show mix6IndexR _ _ _ = _
    rw [engineRow_eq]
    have e1 : missingLow half (half + r) = 0 := by unfold missingLow; omega
    have e2 : missingHigh half line.length (half + r) = r := by unfold missingHigh; omega
    have e3 : visible half line (half + r) = line.drop r := by
      unfold visible; rw [e1, e2, show half + r - half = r by omega]
      apply List.take_of_length_le; rw [List.length_drop]; omega
    show _ = mix6Index _ (missingLow half (half + r)) _ _
    unfold mix6Index
    rw [e1, e2, e3, if_pos rfl]
  · rw [mem_base3] at hl
    have hlen := hl.1
    refine ⟨⟨rfl, hl.2⟩, by show half - (a + 1) < line.length; omega, ?_⟩
    show mix6IndexL _ _ _ = _
    rw [engineRow_eq]
    have e1 : missingLow half (half - (a + 1)) = a + 1 := by unfold missingLow; omega
    have e2 : missingHigh half line.length (half - (a + 1)) = 0 := by unfold missingHigh; omega
    have e3 : visible half line (half - (a + 1)) = line.take (2 * half + 1 - (a + 1)) := by
      unfold visible; rw [e1, e2, show half - (a + 1) - half = 0 by omega]; simp
    show _ = mix6Index _ (missingLow half (half - (a + 1))) _ _
    unfold mix6Index
    rw [e1, e2, e3, if_neg (by omega), if_pos rfl]
  · rw [mem_base3] at hl
    have hlen := hl.1
    refine ⟨⟨rfl, hl.2⟩, by show half - (a + 1) < line.length; omega, ?_⟩
    show mix6IndexLR _ _ _ _ = _
    rw [engineRow_eq]
    have e1 : missingLow half (half - (a + 1)) = a + 1 := by unfold missingLow; omega
    have e2 : missingHigh half line.length (half - (a + 1)) = b + 1 := by unfold missingHigh; omega
    have e3 : visible half line (half - (a + 1)) = line := by
      unfold visible; rw [e1, e2, show half - (a + 1) - half = 0 by omega]
      simp only [List.drop_zero]
      apply List.take_of_length_le; omega
    show _ = mix6Index _ (missingLow half (half - (a + 1))) _ _
    unfold mix6Index
    rw [e1, e2, e3, if_neg (by omega), if_neg (by omega)]

theorem mix6Writes_complete (half : Nat) (line : List Nat) (c : Nat)
    (hp : IsPattern line.length line) (hc : c < line.length) :
    ∃ w ∈ mix6Writes (2 * half + 1), w.1 = engineRow half line c := by
  have hv := visible_length half line c hc
  have hlt := visible_lt half line c hp.2
  have hl : missingLow half c ≤ half := by unfold missingLow; omega
  have hr : missingHigh half line.length c ≤ half := by unfold missingHigh; omega
  rw [engineRow_eq]
  generalize visible half line c = cells at *
  generalize missingLow half c = l at *
  generalize missingHigh half line.length c = r at *
  have hh : (2 * half + 1 + 1) / 2 = half + 1 := by omega
  unfold mix6Writes mix6Index
  rw [hh]
  simp only [List.mem_append, List.mem_flatMap, List.mem_map, List.mem_range]
  by_cases h0 : l = 0
  · rw [if_pos h0]
    refine ⟨_, Or.inl (Or.inl ⟨r, by omega, List.replicate r 0 ++ cells, ?_, rfl⟩), ?_⟩
    · rw [mem_base3]
      refine ⟨by simp; omega, ?_⟩
      intro d hd
      simp only [List.mem_append, List.mem_replicate] at hd
      rcases hd with ⟨-, rfl⟩ | hd
      · norm_num
      · exact hlt d hd
    · show mix6IndexR _ _ (List.drop r (List.replicate r 0 ++ cells)) = _
      rw [List.drop_left' (by simp)]
  · rw [if_neg h0]
    by_cases h1 : r = 0
    · rw [if_pos h1]
      refine ⟨_, Or.inl (Or.inr ⟨l, ⟨l - 1, by omega, by omega⟩, cells ++ List.replicate l 0, ?_, rfl⟩), ?_⟩
      · rw [mem_base3]
        refine ⟨by simp; omega, ?_⟩
        intro d hd
        simp only [List.mem_append, List.mem_replicate] at hd
        rcases hd with hd | ⟨-, rfl⟩
        · exact hlt d hd
        · norm_num
      · show mix6IndexL _ _ (List.take (2 * half + 1 - l) (cells ++ List.replicate l 0)) = _
        rw [List.take_left' (by omega)]
    · rw [if_neg h1]
      exact ⟨_, Or.inr ⟨l, ⟨l - 1, by omega, by omega⟩, r, ⟨r - 1, by omega, by omega⟩, cells,
        (mem_base3 _ _).2 ⟨by omega, hlt⟩, rfl⟩, rfl⟩

/-- **C72** (table).  Let `f line c` be any feature that depends only on the window seen from
position `c`.  In the exported table, the row computed for any line of any length and any position on
it holds exactly the feature of that line at that position. -/
theorem C72_table {α : Type} (half : Nat) (f : List Nat → Nat → α) (zero : α)
    (hf : ∀ l l' c c', windowOf half l c = windowOf half l' c' → f l c = f l' c')
    (line : List Nat) (c : Nat) (hp : IsPattern line.length line) (hc : c < line.length) :
    mix6Table (2 * half + 1) f zero (engineRow half line c) = f line c := by
  unfold mix6Table
  apply table_fold (fun w : Nat × List Nat × Nat => f w.2.1 w.2.2) (fun w => w.1)
  · intro w hw hk
    obtain ⟨h1, h2, h3⟩ := mix6Writes_mem half w hw
    apply hf
    apply ((C72_rows half w.2.1 line w.2.2 c h1 hp h2 hc).2).1
    rw [← h3]; exact hk
  · right
    obtain ⟨w, hw, he⟩ := mix6Writes_complete half line c hp hc
    exact ⟨w, hw, he⟩

/-- Non-vacuity: a window feature, and its table entries for a short and a long line. -/
example : engineRow 1 [1, 2] 0 = 75 ∧ engineRow 1 [0, 1, 2, 2] 1 = 21 ∧ engineRow 1 [1] 0 = 84
    ∧ mix6Table 3 (windowOf 1) [] 75 = [none, some 1, some 2]
    ∧ mix6Table 3 (windowOf 1) [] 84 = [none, some 1, none] := by decide +kernel

end Verif.Export
