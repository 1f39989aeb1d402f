import Verif.Rng.Model
import Mathlib.Data.Nat.Count
import Mathlib.Data.Finset.Card
import Mathlib.Data.Finset.Range
import Mathlib.Order.Interval.Finset.Nat
import Mathlib.Tactic.Ring

namespace Verif.Rng

@[simp] theorem leBytes_length (k n : Nat) : (leBytes k n).length = k := by
  induction k generalizing n with
  | zero => rfl
  | succ k ih => simp [leBytes, ih]

theorem leBytes_inj (k : Nat) : ∀ n m : Nat, n < 256 ^ k → m < 256 ^ k → leBytes k n = leBytes k m → n = m := by
  induction k with
  | zero => intro n m hn hm _; simp at hn hm; omega
  | succ k ih =>
    intro n m hn hm h
    simp only [leBytes, List.cons.injEq] at h
    have h1 : n % 256 = m % 256 := by
      have := congrArg UInt8.toNat h.1
      simpa [UInt8.toNat_ofNat'] using this
    have h2 := ih (n / 256) (m / 256) (by rw [pow_succ] at hn; omega) (by rw [pow_succ] at hm; omega) h.2
    omega

theorem packU32_some {n : Nat} {l : List UInt8} (h : packU32 n = some l) : n < 2 ^ 32 ∧ l = leBytes 4 n := by
  unfold packU32 at h
  split at h <;> simp_all

theorem packU32_cancel {n m : Nat} {a b r s : List UInt8} (ha : packU32 n = some a) (hb : packU32 m = some b)
    (h : a ++ r = b ++ s) : n = m ∧ r = s := by
  obtain ⟨hn, rfl⟩ := packU32_some ha
  obtain ⟨hm, rfl⟩ := packU32_some hb
  have h' := List.append_inj h (by simp)
  exact ⟨leBytes_inj 4 n m (by simpa using hn) (by simpa using hm) h'.1, h'.2⟩

theorem packI64_cancel {i j : Int} (hi : -(2 ^ 63) ≤ i ∧ i < 2 ^ 63) (hj : -(2 ^ 63) ≤ j ∧ j < 2 ^ 63)
    {r s : List UInt8} (h : packI64 i ++ r = packI64 j ++ s) : i = j ∧ r = s := by
  have h' := List.append_inj h (by simp [packI64])
  refine ⟨?_, h'.2⟩
  have := leBytes_inj 8 _ _ (by omega) (by omega) h'.1
  omega

theorem utf8_inj {s t : String} (h : utf8 s = utf8 t) : s = t := by
  have h1 : s.toUTF8.data = t.toUTF8.data := Array.toList_inj.mp h
  have h2 : s.toUTF8 = t.toUTF8 := ByteArray.ext h1
  exact String.toByteArray_inj.mp h2

mutual
theorem tlv_cancel : ∀ (v w : Val) (a b r s : List UInt8), tlv v = some a → tlv w = some b → a ++ r = b ++ s →
    v = w ∧ r = s
  | v, w, a, b, r, s, ha, hb, h => by
    cases v with
    | none =>
      cases w <;> simp_all [tlv, Option.bind_eq_some_iff] <;> grind
    | bool x =>
      cases w <;> simp_all [tlv, Option.bind_eq_some_iff] <;> grind
    | int i =>
      cases w <;> simp_all [tlv, Option.bind_eq_some_iff] <;> try grind
      obtain ⟨hi, rfl⟩ := ha
      obtain ⟨hj, rfl⟩ := hb
      simp at h
      exact packI64_cancel hi hj h
    | str x =>
      cases w <;> simp_all [tlv, Option.bind_eq_some_iff] <;> try grind
      obtain ⟨n, hn, rfl⟩ := ha
      obtain ⟨m, hm, rfl⟩ := hb
      simp at h
      obtain ⟨hl, h⟩ := packU32_cancel hn hm h
      have h' := List.append_inj h hl
      exact ⟨utf8_inj h'.1, h'.2⟩
    | bytes x =>
      cases w <;> simp_all [tlv, Option.bind_eq_some_iff] <;> try grind
      obtain ⟨n, hn, rfl⟩ := ha
      obtain ⟨m, hm, rfl⟩ := hb
      simp at h
      obtain ⟨hl, h⟩ := packU32_cancel hn hm h
      exact List.append_inj h hl
    | seq xs =>
      cases w with
      | seq ys =>
        simp only [tlv, Option.bind_eq_bind, Option.bind_eq_some_iff, Option.some.injEq] at ha hb
        obtain ⟨n, hn, ba, hba, rfl⟩ := ha
        obtain ⟨m, hm, bb, hbb, rfl⟩ := hb
        simp at h
        obtain ⟨hl, h⟩ := packU32_cancel hn hm h
        have := tlvs_cancel xs ys ba bb r s hl hba hbb h
        simp [this]
      | _ => simp_all [tlv, Option.bind_eq_some_iff] <;> grind
theorem tlvs_cancel : ∀ (xs ys : List Val) (a b r s : List UInt8), xs.length = ys.length →
    tlvs xs = some a → tlvs ys = some b → a ++ r = b ++ s → xs = ys ∧ r = s
  | [], [], a, b, r, s, _, ha, hb, h => by simp_all [tlvs]
  | [], _ :: _, _, _, _, _, hl, _, _, _ => by simp at hl
  | _ :: _, [], _, _, _, _, hl, _, _, _ => by simp at hl
  | x :: xs, y :: ys, a, b, r, s, hl, ha, hb, h => by
    simp only [tlvs, Option.bind_eq_bind, Option.bind_eq_some_iff, Option.some.injEq] at ha hb
    obtain ⟨a1, ha1, a2, ha2, rfl⟩ := ha
    obtain ⟨b1, hb1, b2, hb2, rfl⟩ := hb
    simp only [List.append_assoc] at h
    obtain ⟨rfl, h⟩ := tlv_cancel x y a1 b1 (a2 ++ r) (b2 ++ s) ha1 hb1 h
    obtain ⟨rfl, h⟩ := tlvs_cancel xs ys a2 b2 r s (by simpa using hl) ha2 hb2 h
    exact ⟨rfl, h⟩
end

/-! ### Rejection loop -/

theorem rejectLoop_spec (word : Nat → Option Nat) (n : Nat) :
    ∀ fuel c v c', rejectLoop word n fuel c = some (v, c') →
      c < c' ∧ c' ≤ c + fuel ∧ (∃ w, word (c' - 1) = some w ∧ w < limit n ∧ v = w % n) ∧
      ∀ d, c ≤ d → d < c' - 1 → ∃ w, word d = some w ∧ limit n ≤ w := by
  intro fuel
  induction fuel with
  | zero => simp [rejectLoop]
  | succ f ih =>
    intro c v c' h
    rw [rejectLoop] at h
    cases hw : word c with
    | none => simp [hw] at h
    | some w =>
      simp only [hw] at h
      split at h
      · rename_i hlt
        simp only [Option.some.injEq, Prod.mk.injEq] at h
        obtain ⟨rfl, rfl⟩ := h
        refine ⟨by omega, by omega, ⟨w, by simpa using hw, hlt, rfl⟩, ?_⟩
        intro d h1 h2; omega
      · rename_i hge
        obtain ⟨h1, h2, h3, h4⟩ := ih _ _ _ h
        refine ⟨by omega, by omega, h3, ?_⟩
        intro d hd1 hd2
        rcases Nat.eq_or_lt_of_le hd1 with rfl | hlt
        · exact ⟨w, hw, by omega⟩
        · exact h4 d hlt hd2

theorem rejectLoop_congr (w1 w2 : Nat → Option Nat) (n fuel c : Nat)
    (h : ∀ d, c ≤ d → d < c + fuel → w1 d = w2 d) : rejectLoop w1 n fuel c = rejectLoop w2 n fuel c := by
  induction fuel generalizing c with
  | zero => rfl
  | succ f ih =>
    rw [rejectLoop, rejectLoop, h c (Nat.le_refl _) (by omega), ih (c + 1) (fun d h1 h2 => h d (by omega) (by omega))]

theorem boundedDraw_congr (w1 w2 : Nat → Option Nat) (n c : Nat)
    (h : ∀ d, d < 2 ^ 63 → w1 d = w2 d) : boundedDraw w1 n c = boundedDraw w2 n c := by
  unfold boundedDraw
  split
  · rfl
  · exact rejectLoop_congr _ _ _ _ _ (fun d _ h2 => h d (by omega))

/-- Progress: if some word with an admissible counter is accepted and no earlier draw raises, the loop returns. -/
theorem rejectLoop_isSome (word : Nat → Option Nat) (n : Nat) :
    ∀ fuel c, (∃ d, c ≤ d ∧ d < c + fuel ∧ (∃ w, word d = some w ∧ w < limit n) ∧
      ∀ e, c ≤ e → e < d → (word e).isSome) → (rejectLoop word n fuel c).isSome := by
  intro fuel
  induction fuel with
  | zero => rintro c ⟨d, h1, h2, _⟩; omega
  | succ f ih =>
    rintro c ⟨d, h1, h2, ⟨w, hw, hlt⟩, h3⟩
    rw [rejectLoop]
    rcases Nat.eq_or_lt_of_le h1 with rfl | hcd
    · simp [hw, hlt]
    · have := h3 c (Nat.le_refl _) hcd
      obtain ⟨u, hu⟩ := Option.isSome_iff_exists.mp this
      simp only [hu]
      split
      · rfl
      · exact ih (c + 1) ⟨d, hcd, by omega, ⟨w, hw, hlt⟩, fun e he1 he2 => h3 e (by omega) he2⟩

theorem limit_eq (n : Nat) : limit n = n * (2 ^ 64 / n) := by
  unfold limit
  have := Nat.div_add_mod (2 ^ 64) n
  omega

theorem card_residue (n q v : Nat) (hv : v < n) :
    ((Finset.range (n * q)).filter (fun w => w % n = v)).card = q := by
  have hn : 0 < n := by omega
  rw [← Nat.count_eq_card_filter_range]
  induction q with
  | zero => simp
  | succ q ih =>
    rw [Nat.mul_succ, Nat.count_add, ih]
    have : Nat.count (fun k => (n * q + k) % n = v) n = 1 := by
      have h1 : (fun k => (n * q + k) % n = v) = fun k => k % n = v := by
        funext k; simp
      simp only [h1]
      rw [Nat.count_eq_card_filter_range, Finset.card_eq_one]
      refine ⟨v, ?_⟩
      ext k
      simp only [Finset.mem_filter, Finset.mem_range, Finset.mem_singleton]
      constructor
      · rintro ⟨h1, h2⟩; rwa [Nat.mod_eq_of_lt h1] at h2
      · rintro rfl; exact ⟨hv, Nat.mod_eq_of_lt hv⟩
    omega

theorem card_accepted (N n v : Nat) (hv : v < n) :
    ((Finset.range N).filter (fun w => w < N - N % n ∧ w % n = v)).card = N / n := by
  have hlim : N - N % n = n * (N / n) := by have := Nat.div_add_mod N n; omega
  rw [← card_residue n (N / n) v hv, ← hlim]
  congr 1
  ext w
  simp only [Finset.mem_filter, Finset.mem_range]
  constructor
  · rintro ⟨_, h2, h3⟩; exact ⟨h2, h3⟩
  · rintro ⟨h1, h2⟩; exact ⟨by omega, h1, h2⟩

theorem card_rejected (N n : Nat) (hn : 0 < n) :
    ((Finset.range N).filter (fun w => ¬ w < N - N % n)).card < n := by
  have : (Finset.range N).filter (fun w => ¬ w < N - N % n) = Finset.Ico (N - N % n) N := by
    ext w; simp only [Finset.mem_filter, Finset.mem_range, Finset.mem_Ico]; omega
  rw [this, Nat.card_Ico]
  have := Nat.mod_lt N hn
  have := Nat.mod_le N n
  omega

/-! ### Fisher-Yates -/

theorem swap_perm {α : Type} (l : List α) (i j : Nat) : (swap l i j).Perm l := by
  unfold swap
  split
  · rename_i a b ha hb
    rw [List.getElem?_eq_some_iff] at ha hb
    obtain ⟨hi, rfl⟩ := ha
    obtain ⟨hj, rfl⟩ := hb
    exact List.set_set_perm hi hj
  · exact List.Perm.refl _

@[simp] theorem swap_length {α : Type} (l : List α) (i j : Nat) : (swap l i j).length = l.length :=
  (swap_perm l i j).length_eq

theorem fisherYates_perm (draw : Nat → Nat → Option (Nat × Nat)) :
    ∀ i c l p, fisherYates draw i c l = some p → p.Perm l := by
  intro i
  induction i with
  | zero => intro c l p h; simp [fisherYates] at h; simp [h]
  | succ i ih =>
    intro c l p h
    simp only [fisherYates, Option.bind_eq_bind, Option.bind_eq_some_iff] at h
    obtain ⟨⟨j, c'⟩, _, h⟩ := h
    exact (ih _ _ _ h).trans (swap_perm _ _ _)

end Verif.Rng
