import Verif.Play.Props113

/-!
# C113, continued: the engine's move, the game loop, the win rate and the move notation
-/
namespace Verif.Play

/-- A descending sort of the `w · h` policy values: every cell once, no value before a larger one (ties in any order). -/
structure Sorted (w h : Nat) (policy : Nat → ℝ) (order : List Nat) : Prop where
  perm : order.Perm (List.range (w * h))
  desc : order.Pairwise fun a b => policy b ≤ policy a

/-- The cell number of a move. -/
def cellOf (w : Nat) (m : Int × Int) : Nat := m.2.toNat * w + m.1.toNat

theorem cell_onBoard {w h k : Nat} (hk : k < w * h) : OnBoard w h (((k % w : Nat) : Int), ((k / w : Nat) : Int)) := by
  have hw : 0 < w := by
    rcases Nat.eq_zero_or_pos w with h0 | h0
    · rw [h0, Nat.zero_mul] at hk; omega
    · exact h0
  have h1 := Nat.mod_lt k hw
  have h2 : k / w < h := Nat.div_lt_of_lt_mul hk
  exact ⟨Int.natCast_nonneg _, Int.ofNat_lt.mpr h1, Int.natCast_nonneg _, Int.ofNat_lt.mpr h2⟩

theorem cellOf_cell {w : Nat} (k : Nat) : cellOf w (((k % w : Nat) : Int), ((k / w : Nat) : Int)) = k := by
  show (((k / w : Nat) : Int)).toNat * w + (((k % w : Nat) : Int)).toNat = k
  rw [Int.toNat_natCast, Int.toNat_natCast, Nat.mul_comm]
  exact Nat.div_add_mod k w

theorem cellOf_lt {w h : Nat} {m : Int × Int} (hm : OnBoard w h m) : cellOf w m < w * h := by
  obtain ⟨h1, h2, h3, h4⟩ := hm
  have e1 : m.1.toNat < w := by omega
  have e2 : m.2.toNat + 1 ≤ h := by omega
  unfold cellOf
  calc m.2.toNat * w + m.1.toNat < m.2.toNat * w + w := by omega
    _ = (m.2.toNat + 1) * w := by ring
    _ ≤ h * w := Nat.mul_le_mul_right w e2
    _ = w * h := Nat.mul_comm _ _

theorem cell_cellOf {w h : Nat} {m : Int × Int} (hm : OnBoard w h m) :
    (((cellOf w m % w : Nat) : Int), ((cellOf w m / w : Nat) : Int)) = m := by
  obtain ⟨h1, h2, h3, h4⟩ := hm
  have e1 : m.1.toNat < w := by omega
  have hw : 0 < w := by omega
  unfold cellOf
  have a1 : (m.2.toNat * w + m.1.toNat) % w = m.1.toNat := by
    rw [Nat.add_comm, Nat.add_mul_mod_self_right, Nat.mod_eq_of_lt e1]
  have a2 : (m.2.toNat * w + m.1.toNat) / w = m.2.toNat := by
    rw [Nat.add_comm, Nat.add_mul_div_right _ _ hw, Nat.div_eq_of_lt e1, Nat.zero_add]
  rw [a1, a2]
  ext
  · exact Int.toNat_of_nonneg h1
  · exact Int.toNat_of_nonneg h3

/-- A board that is not full has a free cell. -/
theorem free_cell {w h : Nat} {ms : List (Int × Int)} (hlt : ms.length < w * h) :
    ∃ k < w * h, (((k % w : Nat) : Int), ((k / w : Nat) : Int)) ∉ ms := by
  by_contra hc
  push Not at hc
  have hsub : List.range (w * h) ⊆ ms.map (cellOf w) := by
    intro k hk
    exact List.mem_map.mpr ⟨_, hc k (List.mem_range.mp hk), cellOf_cell k⟩
  have := (List.subperm_of_subset List.nodup_range hsub).length_le
  rw [List.length_range, List.length_map] at this
  omega

theorem nextMove_find {s : Board} {w h : Nat} {ms : List (Int × Int)} (hs : Shows s w h ms) (policy : Nat → ℝ) (order : List Nat)
    (ho : Sorted w h policy order) (hlt : ms.length < w * h) :
    ∃ m, nextMove s order = some m ∧ OnBoard w h m ∧ m ∉ ms ∧
      ∀ m', OnBoard w h m' → m' ∉ ms → policy (cellOf w m') ≤ policy (cellOf w m) := by
  have hleg : ∀ k, isLegal s ((k % s.w : Nat) : Int) ((k / s.w : Nat) : Int) = true ↔
      OnBoard w h (((k % w : Nat) : Int), ((k / w : Nat) : Int)) ∧ (((k % w : Nat) : Int), ((k / w : Nat) : Int)) ∉ ms := by
    intro k
    rw [hs.dims.1]
    exact legal_iff hs _ _
  obtain ⟨k0, hk0, hfree⟩ := free_cell hlt
  have hin : k0 ∈ order := (ho.perm.mem_iff).mpr (List.mem_range.mpr hk0)
  cases hf : order.find? fun k => isLegal s ((k % s.w : Nat) : Int) ((k / s.w : Nat) : Int) with
  | none =>
    have := List.find?_eq_none.mp hf k0 hin
    exact absurd ((hleg k0).mpr ⟨cell_onBoard hk0, hfree⟩) this
  | some k =>
    have hk := List.find?_some hf
    have hk' := (hleg k).mp hk
    refine ⟨(((k % w : Nat) : Int), ((k / w : Nat) : Int)), ?_, hk'.1, hk'.2, ?_⟩
    · unfold nextMove
      rw [hf, hs.dims.1]
      rfl
    · intro m' hm' hn'
      rw [cellOf_cell]
      have hc' := cellOf_lt hm'
      have hin' : cellOf w m' ∈ order := (ho.perm.mem_iff).mpr (List.mem_range.mpr hc')
      have hleg' := (hleg (cellOf w m')).mpr (by rw [cell_cellOf hm']; exact ⟨hm', hn'⟩)
      obtain ⟨_, as, bs, hsplit, hbefore⟩ := List.find?_eq_some_iff_append.mp hf
      rw [hsplit] at hin'
      rcases List.mem_append.mp hin' with hm | hm
      · have := hbefore _ hm
        simp only [Bool.not_eq_true'] at this
        rw [hleg'] at this
        cases this
      · rcases List.mem_cons.mp hm with he | hm
        · rw [he]
        · have hp := ho.desc
          rw [hsplit] at hp
          exact (List.pairwise_cons.mp (List.pairwise_append.mp hp).2.1).1 _ hm

/-- **C113 (the engine's move).** On every reachable board that is not full, for every policy and every descending sort of it, the engine answers
with a legal move of the largest policy among all legal moves. On a full board there is no answer. -/
theorem C113_engine (w h : Nat) (ops : List Op) (policy : Nat → ℝ) (order : List Nat) (ho : Sorted w h policy order) :
    ((standing w h ops).length < w * h → ∃ m, nextMove (run (init w h) ops) order = some m ∧ OnBoard w h m ∧ m ∉ standing w h ops ∧
      ∀ m', OnBoard w h m' → m' ∉ standing w h ops → policy (cellOf w m') ≤ policy (cellOf w m)) ∧
    ((∀ m, OnBoard w h m → m ∈ standing w h ops) → nextMove (run (init w h) ops) order = none) := by
  obtain ⟨hsh, _⟩ := C113_state w h ops
  refine ⟨nextMove_find hsh policy order ho, fun hfull => ?_⟩
  unfold nextMove
  rw [List.find?_eq_none.mpr]
  · rfl
  · intro k _ hl
    have := (legal_iff hsh _ _).mp hl
    exact this.2 (hfull _ this.1)

/-- A turn of the engine, whatever the policy. -/
def Engine (w h : Nat) (t : Turn) : Prop := ∃ policy order, Sorted w h policy order ∧ t = .ai order

/-- The loop on a board showing `ms`. -/
theorem loop_shows {w h : Nat} (ts : List Turn) : ∀ {s : Board} {ms : List (Int × Int)}, Shows s w h ms → Distinct w h ms →
    ms.length ≤ w * h - 1 → (∀ t ∈ ts, Engine w h t ∨ ∃ x y, t = .human x y) →
    (loop s ts).2 ≠ some .noMove ∧ (loop s ts).2 ≠ some .empty ∧
    (∃ ms', Shows (loop s ts).1 w h ms' ∧ Distinct w h ms' ∧ ms'.length ≤ w * h - 1 ∧ ms <+: ms' ∧
      ((loop s ts).2 = none → ms'.length = min (ms.length + ts.length) (w * h - 1))) ∧
    ((∀ t ∈ ts, Engine w h t) → (loop s ts).2 = none) := by
  induction ts with
  | nil =>
    intro s ms hs hd hle _
    exact ⟨fun h => (by cases h), fun h => (by cases h), ⟨ms, hs, hd, hle, List.prefix_rfl, fun _ => by rw [List.length_nil]; omega⟩, fun _ => rfl⟩
  | cons t ts ih =>
    intro s ms hs hd hle ht
    have hply : ply s = ms.length := by
      unfold ply
      rw [hs.hist, List.length_mapIdx]
    by_cases hc : ms.length + 1 < w * h
    · have hl : loop s (t :: ts) = match turn s t with | (s', none) => loop s' ts | (s', some e) => (s', some e) := by
        rw [show loop s (t :: ts) = if ply s + 1 < s.w * s.h then (match turn s t with | (s', none) => loop s' ts | (s', some e) => (s', some e)) else (s, none) from rfl]
        rw [hply, hs.dims.1, hs.dims.2]
        exact if_pos hc
      have hgo : ∀ x y, OnBoard w h (x, y) ∧ (x, y) ∉ ms → turn s t = move s x y →
          (loop s (t :: ts)).2 ≠ some .noMove ∧ (loop s (t :: ts)).2 ≠ some .empty ∧
          (∃ ms', Shows (loop s (t :: ts)).1 w h ms' ∧ Distinct w h ms' ∧ ms'.length ≤ w * h - 1 ∧ ms <+: ms' ∧
            ((loop s (t :: ts)).2 = none → ms'.length = min (ms.length + (t :: ts).length) (w * h - 1))) ∧
          ((∀ t' ∈ t :: ts, Engine w h t') → (loop s (t :: ts)).2 = none) := by
        intro x y hxy hturn
        obtain ⟨hm1, hm2, hm3⟩ := move_shows hs hd x y hxy
        have he : turn s t = ((move s x y).1, none) := by
          rw [hturn, ← hm1]
        have hl' : loop s (t :: ts) = loop (move s x y).1 ts := by
          rw [hl, he]
        have hlen : (ms ++ [(x, y)]).length = ms.length + 1 := by rw [List.length_append, List.length_singleton]
        obtain ⟨i1, i2, ⟨ms', i3, i4, i5, i6, i7⟩, i8⟩ := ih hm2 hm3 (by rw [hlen]; omega) fun t' ht' => ht t' (List.mem_cons_of_mem _ ht')
        rw [hl']
        refine ⟨i1, i2, ⟨ms', i3, i4, i5, (List.prefix_append ms _).trans i6, fun hn => ?_⟩, fun ha => i8 fun t' ht' => ha t' (List.mem_cons_of_mem _ ht')⟩
        rw [i7 hn, hlen, List.length_cons]
        congr 1
        omega
      rcases ht t List.mem_cons_self with ⟨policy, order, ho, rfl⟩ | ⟨x, y, rfl⟩
      · obtain ⟨m, hm, hb, hn, _⟩ := nextMove_find hs policy order ho (by omega)
        refine hgo m.1 m.2 ⟨hb, hn⟩ ?_
        show (match nextMove s order with | none => (s, some Err.noMove) | some m => move s m.1 m.2) = _
        rw [hm]
      · by_cases hxy : OnBoard w h (x, y) ∧ (x, y) ∉ ms
        · exact hgo x y hxy rfl
        · have he : turn s (.human x y) = (s, some .illegal) := move_illegal hs x y hxy
          have hl' : loop s (Turn.human x y :: ts) = (s, some .illegal) := by
            rw [hl, he]
          rw [hl']
          refine ⟨fun h => (by cases h), fun h => (by cases h), ⟨ms, hs, hd, hle, List.prefix_rfl, fun h => (by cases h)⟩, fun ha => ?_⟩
          obtain ⟨_, _, _, h⟩ := ha _ List.mem_cons_self
          cases h
    · have hl : loop s (t :: ts) = (s, none) := by
        rw [show loop s (t :: ts) = if ply s + 1 < s.w * s.h then (match turn s t with | (s', none) => loop s' ts | (s', some e) => (s', some e)) else (s, none) from rfl]
        rw [hply, hs.dims.1, hs.dims.2]
        exact if_neg hc
      rw [hl]
      exact ⟨fun h => (by cases h), fun h => (by cases h), ⟨ms, hs, hd, hle, List.prefix_rfl, fun _ => by rw [List.length_cons]; omega⟩, fun _ => rfl⟩

/-- **C113 (the game).** In every game of typed moves and engine turns with any policies: the engine never fails to find a move; at least one cell stays
empty; only a typed move that is off the board or on a stone ends it early; and otherwise every turn puts one stone, until one cell is left. -/
theorem C113_game (w h : Nat) (ts : List Turn) (ht : ∀ t ∈ ts, Engine w h t ∨ ∃ x y, t = .human x y) :
    (loop (init w h) ts).2 ≠ some .noMove ∧
    (∃ ms, Shows (loop (init w h) ts).1 w h ms ∧ Distinct w h ms ∧ ms.length ≤ w * h - 1 ∧
      ((loop (init w h) ts).2 = none → ms.length = min ts.length (w * h - 1))) ∧
    ((∀ t ∈ ts, Engine w h t) → (loop (init w h) ts).2 = none) := by
  obtain ⟨hs, hd⟩ := init_shows w h
  obtain ⟨h1, _, ⟨ms, h3, h4, h5, _, h6⟩, h7⟩ := loop_shows ts hs hd (Nat.zero_le _) ht
  refine ⟨h1, ⟨ms, h3, h4, h5, fun hn => ?_⟩, h7⟩
  rw [h6 hn, List.length_nil, Nat.zero_add]

/-! ### Win rate and policy -/

theorem softmax_pos {n : Nat} (l : Fin n → ℝ) (i : Fin n) : 0 < softmax l i := by
  unfold softmax
  exact div_pos (Real.exp_pos _) (Finset.sum_pos (fun j _ => Real.exp_pos _) ⟨i, Finset.mem_univ i⟩)

/-- **C113 (win rate).** The printed win rate is the win probability plus half the draw probability; it lies strictly between 0 and 1, and with win and
loss exchanged it is one minus itself. -/
theorem C113_winrate (l : Fin 3 → ℝ) :
    winrate l = softmax l 0 + softmax l 2 / 2 ∧ 0 < winrate l ∧ winrate l < 1 ∧ ∀ l' : Fin 3 → ℝ, l' 0 = l 1 → l' 1 = l 0 → l' 2 = l 2 →
      winrate l' = 1 - winrate l := by
  have hsum : softmax l 0 + softmax l 1 + softmax l 2 = 1 := by
    have hp : 0 < ∑ j, Real.exp (l j) := Finset.sum_pos (fun j _ => Real.exp_pos _) ⟨0, Finset.mem_univ _⟩
    unfold softmax
    rw [← add_div, ← add_div, ← Fin.sum_univ_three fun j => Real.exp (l j)]
    exact div_self hp.ne'
  have h0 := softmax_pos l 0
  have h1 := softmax_pos l 1
  have h2 := softmax_pos l 2
  unfold winrate
  refine ⟨by linarith, by linarith, by linarith, ?_⟩
  intro l' e0 e1 e2
  have a0 : softmax l' 0 = softmax l 1 := by
    unfold softmax
    rw [Fin.sum_univ_three, Fin.sum_univ_three, e0, e1, e2, add_comm (Real.exp (l 1))]
  have a1 : softmax l' 1 = softmax l 0 := by
    unfold softmax
    rw [Fin.sum_univ_three, Fin.sum_univ_three, e0, e1, e2, add_comm (Real.exp (l 1))]
  rw [a0, a1]
  ring

/-- **C113 (policy).** Probabilities are ordered as the policy logits are. -/
theorem C113_policy {n : Nat} (l : Fin n → ℝ) (i j : Fin n) : softmax l i ≤ softmax l j ↔ l i ≤ l j := by
  have hp : 0 < ∑ j, Real.exp (l j) := Finset.sum_pos (fun j _ => Real.exp_pos _) ⟨i, Finset.mem_univ _⟩
  unfold softmax
  rw [div_le_div_iff_of_pos_right hp]
  exact Real.exp_le_exp

/-! ### Notation -/

theorem int_str (n : Nat) : int (str n) = some n := by
  unfold str
  by_cases hn : n = 0
  · rw [if_pos hn, hn]
    rfl
  · rw [if_neg hn]
    have hne : (Nat.digits 10 n).reverse.map (· + 48) ≠ [] := by
      intro h
      have := List.map_eq_nil_iff.mp h
      rw [List.reverse_eq_nil_iff, Nat.digits_eq_nil_iff_eq_zero] at this
      exact hn this
    have hall : ((Nat.digits 10 n).reverse.map (· + 48)).all (fun c => decide (48 ≤ c ∧ c ≤ 57)) = true := by
      rw [List.all_eq_true]
      intro c hc
      obtain ⟨d, hd, rfl⟩ := List.mem_map.mp hc
      have := Nat.digits_lt_base (by norm_num : 1 < 10) (List.mem_reverse.mp hd)
      rw [decide_eq_true_iff]
      omega
    unfold int
    rw [if_neg hne, if_pos hall, List.map_map]
    have : (List.map ((fun x => x - 48) ∘ fun x => x + 48) (Nat.digits 10 n).reverse) = (Nat.digits 10 n).reverse := by
      rw [List.map_congr_left (g := id) (fun a _ => by show a + 48 - 48 = a; omega), List.map_id]
    rw [this, List.reverse_reverse, Nat.ofDigits_digits]

/-- **C113 (notation).** Typing a printed move gives that move back, on boards up to 32 columns wide; in column 32 (`a`) it gives column 0. -/
theorem C113_notation (x y : Nat) :
    (x < 32 → inputMove (outputMove x y) = .at x y) ∧ (x = 32 → inputMove (outputMove x y) = .at 0 y) := by
  have h : inputMove (outputMove x y) = .at ((upper (x + 65) : Int) - 65) (y : Int) := by
    show (match int (str (y + 1)) with | none => Typed.bad | some n => Typed.at ((upper (x + 65) : Int) - 65) ((n : Int) - 1)) = _
    rw [int_str]
    simp
  rw [h]
  constructor
  · intro hx
    have : upper (x + 65) = x + 65 := by unfold upper; exact if_neg (by omega)
    rw [this]
    congr 1
    push_cast
    ring
  · intro hx
    rw [hx]
    rfl

end Verif.Play
