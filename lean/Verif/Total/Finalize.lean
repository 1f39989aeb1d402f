import Verif.Total.Produce2
import Mathlib.Algebra.BigOperators.Ring.List
import Mathlib.Tactic.FieldSimp
import Mathlib.Tactic.Positivity
import Mathlib.Tactic.NormNum

/-! The finalizers on the summed dictionaries. -/

namespace Verif.Total

open Verif.Stats

variable {Part : Type}

/-- the summed tensors and counts are found under their names -/
def GetT (T : Dict (Ten ℚ)) (ts : List (TSpec Part)) (P : List Part) : Prop :=
  ∀ t ∈ ts, get? t.name T = some (vec t.info (fun i => (P.map (fun p => t.val p i)).sum))
def GetC (C : Dict Int) (cs : List (CSpec Part)) (P : List Part) : Prop :=
  ∀ c ∈ cs, get? c.name C = some (((P.map c.val).sum : Nat) : Int)

theorem getT_sca {T : Dict (Ten ℚ)} {ts : List (TSpec Part)} {P : List Part} (h : GetT T ts P)
    {k : String} {dd : String × String} {f : Part → ℚ} (hm : sca k dd f ∈ ts) :
    lookup T k = .ok (scalar dd (total f P)) := by
  have := h _ hm
  simp only [sca, vec_scalar] at this
  unfold lookup
  rw [this]
  rfl

theorem getT_con {T : Dict (Ten ℚ)} {ts : List (TSpec Part)} {P : List Part} (h : GetT T ts P)
    {k : String} {dd : String × String} {x : ℚ} (hm : con k dd x ∈ ts) :
    lookup T k = .ok (scalar dd (P.length * x)) := by
  have := h _ hm
  simp only [con, vec_scalar] at this
  unfold lookup
  rw [this]
  simp

theorem getC_count {C : Dict Int} {cs : List (CSpec Part)} {P : List Part} (h : GetC C cs P)
    {k : String} {f : Part → Nat} (hm : ⟨k, f⟩ ∈ cs) : countOf C k = (totalN f P : Int) := by
  have := h _ hm
  simp only at this
  unfold countOf
  rw [this]
  rfl

theorem getC_one {C : Dict Int} {cs : List (CSpec Part)} {P : List Part} (h : GetC C cs P)
    {k : String} (hm : ⟨k, fun _ => 1⟩ ∈ cs) : countOf C k = (P.length : Int) := by
  rw [getC_count h hm]
  simp [totalN]

theorem constMean_con (eps : ℚ) (heps : 0 ≤ eps) {T : Dict (Ten ℚ)} {C : Dict Int}
    {ts : List (TSpec Part)} {cs : List (CSpec Part)} {P : List Part} (hP : P ≠ [])
    (hT : GetT T ts P) (hC : GetC C cs P) {ks kq kr : String} {dd : String × String} {x : ℚ}
    (h1 : con ks dd x ∈ ts) (h2 : con kq dd (x ^ 2) ∈ ts) (h3 : ⟨kr, fun _ => 1⟩ ∈ cs) :
    constMean eps T C ks kq kr = .ok (scalar dd x) := by
  unfold constMean
  rw [getT_con hT h1, getT_con hT h2, getC_one hC h3]
  have hn : 0 < P.length := List.length_pos_iff.2 hP
  have := constantMean_same eps heps (sc dd) (fun _ : Fin 1 => x) P.length hn
  simp only [vec_scalar] at this
  exact this

theorem scalar_zip (dd dd' : String × String) (x y : ℚ) (f : ℚ → ℚ → ℚ) :
    ((scalar dd x).zip f (scalar dd' y)).data = [f x y] := rfl

theorem totalN_ne {f : Part → Nat} {P : List Part} (h : 0 < totalN f P) : P ≠ [] := by
  rintro rfl
  simp [totalN] at h

/-! ### Accumulation -/

def AccIs (acc : Option (Ten ℚ)) (x : ℚ) : Prop :=
  match acc with
  | none => x = 0
  | some t => t.data = [x]

theorem addAll_sum {α : Type} (value : String → Except String (Ten ℚ)) (f : α → String) (v : α → ℚ) :
    ∀ (L : List α) (acc : Option (Ten ℚ)) (x : ℚ), AccIs acc x →
      (∀ a ∈ L, ∃ t, value (f a) = .ok t ∧ t.data = [v a]) →
      ∃ r, addAll value acc (L.map f) = .ok r ∧ AccIs r (x + (L.map v).sum) ∧
        (r = none ↔ acc = none ∧ L = []) := by
  intro L
  induction L with
  | nil => intro acc x h _; exact ⟨acc, rfl, by simpa using h, by simp⟩
  | cons a L ih =>
    intro acc x h hv
    obtain ⟨t, ht, hd⟩ := hv a (List.mem_cons_self ..)
    rw [List.map_cons, addAll, ht]
    dsimp only
    cases acc with
    | none =>
      have hx : x = 0 := h
      subst hx
      obtain ⟨r, h1, h2, h3⟩ := ih (some t) (v a) hd (fun b hb => hv b (List.mem_cons_of_mem _ hb))
      refine ⟨r, h1, ?_, ?_⟩
      · simpa using h2
      · rw [h3]; simp
    | some r0 =>
      have hr0 : r0.data = [x] := h
      have : (r0.zip (· + ·) t).data = [x + v a] := by
        unfold Ten.zip
        simp only [hr0, hd]
        rfl
      obtain ⟨r, h1, h2, h3⟩ := ih (some (r0.zip (· + ·) t)) (x + v a) this
        (fun b hb => hv b (List.mem_cons_of_mem _ hb))
      refine ⟨r, h1, ?_, ?_⟩
      · rw [List.map_cons, List.sum_cons, ← add_assoc]; exact h2
      · rw [h3]; simp

/-- The accumulation over sorted ids that are the names of a list, in any order. -/
theorem addAll_ids {α : Type} (value : String → Except String (Ten ℚ)) (f : α → String) (v : α → ℚ)
    (L : List α) (ids : List String) (hp : ids.Perm (L.map f)) (acc : Option (Ten ℚ)) (x : ℚ)
    (hacc : AccIs acc x) (hv : ∀ a ∈ L, ∃ t, value (f a) = .ok t ∧ t.data = [v a]) :
    ∃ r, addAll value acc (sortIds ids) = .ok r ∧ AccIs r (x + (L.map v).sum) ∧
      (r = none ↔ acc = none ∧ L = []) := by
  obtain ⟨L', hL, he⟩ := perm_map_inv f ((sortIds_perm ids).trans hp) L rfl
  rw [he]
  obtain ⟨r, h1, h2, h3⟩ := addAll_sum value f v L' acc x hacc (fun a ha => hv a (hL.mem_iff.1 ha))
  refine ⟨r, h1, ?_, ?_⟩
  · rw [← (hL.map v).sum_eq]; exact h2
  · rw [h3]
    constructor
    · rintro ⟨a, rfl⟩; exact ⟨a, List.Perm.eq_nil hL.symm⟩
    · rintro ⟨a, rfl⟩; exact ⟨a, List.Perm.eq_nil hL⟩

/-! ### One slot -/

theorem slotBase_ok (eps : ℚ) (heps : 0 ≤ eps) (T : Dict (Ten ℚ)) (C : Dict Int) (s : Slot Part) (w : ℚ)
    (P : List Part) (hT : GetT T (s.ts w) P) (hC : GetC C s.cs P) (he : 0 < totalN s.elements P)
    (hv : 0 < totalN s.vectors P) :
    slotBase eps T C s.id = .ok (scalar s.dd
      ((total s.embed P + s.commitment * total s.commit P) / totalN s.elements P)) := by
  unfold slotBase
  have hP := totalN_ne he
  have c1 : countOf C ("elements:" ++ s.id) = (totalN s.elements P : Int) :=
    getC_count hC (k := nkey "elements" s.id) (List.mem_cons_self ..)
  have c2 : countOf C ("vectors:" ++ s.id) = (totalN s.vectors P : Int) :=
    getC_count hC (k := nkey "vectors" s.id) (by simp [Slot.cs])
  have c3 : constMean eps T C ("commit_weight_sum:" ++ s.id) ("commit_weight_square_sum:" ++ s.id)
      ("constant_replicas:" ++ s.id) = .ok (scalar s.dd s.commitment) :=
    constMean_con eps heps hP hT hC (ks := nkey "commit_weight_sum" s.id)
      (kq := nkey "commit_weight_square_sum" s.id) (kr := nkey "constant_replicas" s.id)
      (by simp [Slot.ts, Slot.base]) (by simp [Slot.ts, Slot.base]) (by simp [Slot.cs])
  have c4 : lookup T ("embed_sum:" ++ s.id) = .ok (scalar s.dd (total s.embed P)) :=
    getT_sca hT (k := nkey "embed_sum" s.id) (by simp [Slot.ts, Slot.base])
  have c5 : lookup T ("commit_sum:" ++ s.id) = .ok (scalar s.dd (total s.commit P)) :=
    getT_sca hT (k := nkey "commit_sum" s.id) (by simp [Slot.ts, Slot.base])
  simp only [c1, c2, c3, c4, c5]
  rw [if_neg (by omega)]
  rfl

theorem slotEntropy_ok (eps : ℚ) (heps : 0 ≤ eps) (log : ℚ → ℚ) (T : Dict (Ten ℚ)) (C : Dict Int)
    (slots : List (Slot Part)) (hn : SlotNames T C slots) (hid : (slots.map Slot.id).Nodup)
    (s : Slot Part) (hs : s ∈ slots) (w : ℚ)
    (P : List Part) (hT : GetT T (s.ts w) P) (hC : GetC C s.cs P)
    (hv : 0 < totalN s.vectors P) (x : ℚ) :
    ∃ t, slotEntropy eps log T C s.id (scalar s.dd x) = .ok t ∧ t.data =
      [x + s.entropy * ((List.ofFn (fun i => total (fun p => s.prob p i) P / totalN s.vectors P)).map
        (fun x => x * log (max x (1 / 10 ^ 7)))).sum] := by
  unfold slotEntropy
  have hP := totalN_ne hv
  simp only [ent_present hn hid s hs]
  by_cases he : s.entropy = 0
  · simp only [he, if_true, List.isEmpty_nil, zero_mul, add_zero]
    exact ⟨_, rfl, rfl⟩
  · simp only [he, if_false]
    have c2 : countOf C ("vectors:" ++ s.id) = (totalN s.vectors P : Int) :=
      getC_count hC (k := nkey "vectors" s.id) (by simp [Slot.cs])
    have c3 : constMean eps T C ("entropy_weight_sum:" ++ s.id) ("entropy_weight_square_sum:" ++ s.id)
        ("constant_replicas:" ++ s.id) = .ok (scalar s.dd s.entropy) :=
      constMean_con eps heps hP hT hC (ks := nkey "entropy_weight_sum" s.id)
        (kq := nkey "entropy_weight_square_sum" s.id) (kr := nkey "constant_replicas" s.id)
        (by simp [Slot.ts, Slot.ent, he]) (by simp [Slot.ts, Slot.ent, he]) (by simp [Slot.cs])
    have c4 : lookup T ("probability_sum:" ++ s.id) = .ok (vec ([s.codes], s.dd.1, s.dd.2)
        (fun i => total (fun p => s.prob p i) P)) := by
      have := hT ⟨nkey "probability_sum" s.id, ([s.codes], s.dd.1, s.dd.2), s.codes, s.prob⟩
        (by simp [Slot.ts, Slot.ent, he])
      have k : get? ("probability_sum:" ++ s.id) T = _ := this
      unfold lookup
      rw [k]
      rfl
    rw [if_neg (by simp [entropyKeys]), if_neg (by simp [eqSet_iff])]
    simp only [c2, c3, c4]
    refine ⟨_, rfl, ?_⟩
    show [x + s.entropy * _] = _
    congr 2
    congr 1
    congr 1
    unfold divBy
    rw [vec_map]
    simp only [vec]
    push_cast
    rfl

theorem slotValue_ok (eps : ℚ) (heps : 0 ≤ eps) (log : ℚ → ℚ) (T : Dict (Ten ℚ)) (C : Dict Int)
    (slots : List (Slot Part)) (hn : SlotNames T C slots) (hid : (slots.map Slot.id).Nodup)
    (s : Slot Part) (hs : s ∈ slots) (w : ℚ)
    (P : List Part) (hT : GetT T (s.ts w) P) (hC : GetC C s.cs P)
    (he : 0 < totalN s.elements P) (hv : 0 < totalN s.vectors P) :
    ∃ t, slotValue eps log T C s.id = .ok t ∧ t.data = [w * s.value log P] := by
  have hP := totalN_ne hv
  unfold slotValue
  rw [slotBase_ok eps heps T C s w P hT hC he hv]
  dsimp only
  obtain ⟨t, h1, h2⟩ := slotEntropy_ok eps heps log T C slots hn hid s hs w P hT hC hv
    ((total s.embed P + s.commitment * total s.commit P) / totalN s.elements P)
  rw [h1]
  dsimp only
  have c3 : constMean eps T C ("slot_weight_sum:" ++ s.id) ("slot_weight_square_sum:" ++ s.id)
      ("constant_replicas:" ++ s.id) = .ok (scalar s.dd (s.weight * w)) :=
    constMean_con eps heps hP hT hC (ks := nkey "slot_weight_sum" s.id)
      (kq := nkey "slot_weight_square_sum" s.id) (kr := nkey "constant_replicas" s.id)
      (by simp [Slot.ts, Slot.base]) (by simp [Slot.ts, Slot.base]) (by simp [Slot.cs])
  rw [c3]
  refine ⟨_, rfl, ?_⟩
  unfold Ten.zip
  simp only [h2]
  show [s.weight * w * _] = _
  unfold Slot.value
  congr 1
  ring

theorem finalizeVq_ok (eps : ℚ) (heps : 0 ≤ eps) (log : ℚ → ℚ) (T : Dict (Ten ℚ)) (C : Dict Int)
    (slots : List (Slot Part)) (hn : SlotNames T C slots) (hid : (slots.map Slot.id).Nodup)
    (hne : slots ≠ []) (w : ℚ)
    (P : List Part) (hT : GetT T (slotsT slots w) P) (hC : GetC C (slotsC slots) P)
    (hpos : ∀ s ∈ slots, 0 < totalN s.elements P ∧ 0 < totalN s.vectors P) :
    ∃ t, finalizeVq eps log T C = .ok t ∧ t.data = [w * (slots.map (fun s => s.value log P)).sum] := by
  unfold finalizeVq
  obtain ⟨r, h1, h2, h3⟩ := addAll_ids (slotValue eps log T C) Slot.id (fun s => w * s.value log P) slots
    (schemaIds T "embed_sum:") (slot_ids hn hid) none 0 rfl (fun s hs =>
      slotValue_ok eps heps log T C slots hn hid s hs w P
        (fun t ht => hT t (List.mem_flatMap.2 ⟨s, hs, ht⟩))
        (fun c hc => hC c (List.mem_flatMap.2 ⟨s, hs, hc⟩)) (hpos s hs).1 (hpos s hs).2)
  obtain ⟨e, g1, g2, g3⟩ := vq_sets hn hid
  simp only [ids_ne hn hid hne, h1, Bool.false_eq_true, if_false]
  cases r with
  | none => exact absurd (h3.1 rfl).2 hne
  | some v =>
    simp only [g1, g2, g3, Bool.and_self, if_true]
    refine ⟨v, rfl, ?_⟩
    have : v.data = [0 + (slots.map (fun s => w * s.value log P)).sum] := h2
    rw [this, List.sum_map_mul_left, zero_add]

end Verif.Total
