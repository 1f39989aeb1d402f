import Verif.Reservoir.Model
import Verif.Rng.Lemmas

namespace Verif.Reservoir
open Verif.Rng

theorem leNat_leBytes (k n : Nat) (h : n < 256 ^ k) : leNat (leBytes k n) = n := by
  induction k generalizing n with
  | zero => simp at h; simp [leBytes, leNat, h]
  | succ k ih =>
    have h' : n / 256 < 256 ^ k := by rw [pow_succ] at h; omega
    simp only [leBytes, leNat, ih _ h', UInt8.toNat_ofNat']
    omega

theorem bytesToIds_append (x : List UInt8) (hx : x.length = 8) (r : List UInt8) :
    bytesToIds (x ++ r) = UInt64.ofNat (leNat x) :: bytesToIds r := by
  match x, hx with
  | [a, b, c, d, e, f, g, h], _ => rfl

theorem bytes_roundtrip (ids : List UInt64) : bytesToIds (idsToBytes ids) = ids := by
  induction ids with
  | nil => rfl
  | cons x xs ih =>
    unfold idsToBytes at ih ⊢
    rw [List.flatMap_cons, bytesToIds_append _ (by simp), ih, leNat_leBytes]
    · simp
    · have := x.toNat_lt; omega

theorem idsToBytes_length (ids : List UInt64) : (idsToBytes ids).length = 8 * ids.length := by
  induction ids with
  | nil => rfl
  | cons x xs ih =>
    unfold idsToBytes at ih ⊢
    rw [List.flatMap_cons, List.length_append, ih]; simp; omega

/-- Pending ids of the buffer, oldest first. -/
def Ready.content (b : Ready) : List UInt64 := b.chunks.flatten.drop b.head

def HeadOk (chunks : List (List UInt64)) (head : Nat) : Prop :=
  (∀ c ∈ chunks, c ≠ []) ∧ match chunks with | [] => head = 0 | c :: _ => head < c.length

structure Ready.Inv (b : Ready) : Prop where
  ok : HeadOk b.chunks b.head
  size : b.size = b.content.length

theorem HeadOk.tail {c : List UInt64} {cs : List (List UInt64)} {h : Nat} (H : HeadOk (c :: cs) h) : HeadOk cs 0 := by
  refine ⟨fun d hd => H.1 d (by simp [hd]), ?_⟩
  cases cs with
  | nil => rfl
  | cons d ds => exact List.length_pos_of_ne_nil (H.1 d (by simp))

theorem take_split {β : Type} (a b : List β) (k : Nat) (h : a.length ≤ k) :
    (a ++ b).take k = a ++ b.take (k - a.length) := by
  rw [List.take_append, List.take_of_length_le h]

theorem drop_split {β : Type} (a b : List β) (k : Nat) (h : a.length ≤ k) :
    (a ++ b).drop k = b.drop (k - a.length) := by
  rw [List.drop_append, List.drop_of_length_le h, List.nil_append]

theorem popLoop_spec : ∀ (chunks : List (List UInt64)) (head k : Nat), HeadOk chunks head →
    k ≤ (chunks.flatten.drop head).length →
    ∃ cs h, popLoop chunks head k = some (cs, h, (chunks.flatten.drop head).take k) ∧ HeadOk cs h ∧
      cs.flatten.drop h = (chunks.flatten.drop head).drop k := by
  intro chunks
  induction chunks with
  | nil =>
    intro head k hok hk
    have : k = 0 := by simpa using hk
    subst this
    exact ⟨[], head, by simp [popLoop], hok, by simp⟩
  | cons c cs ih =>
    intro head k hok hk
    have hlt : head < c.length := hok.2
    cases k with
    | zero => exact ⟨c :: cs, head, by simp [popLoop], hok, by simp⟩
    | succ k =>
      have hdrop : (c :: cs).flatten.drop head = c.drop head ++ cs.flatten := by
        rw [List.flatten_cons, List.drop_append_of_le_length (by omega)]
      rw [hdrop] at hk ⊢
      simp only [popLoop]
      by_cases hle : c.length - head ≤ k + 1
      · have hm : min (k + 1) (c.length - head) = c.length - head := by omega
        rw [hm, if_pos (by omega)]
        obtain ⟨cs', h', e1, e2, e3⟩ := ih 0 (k + 1 - (c.length - head)) hok.tail (by
          simp only [List.length_append, List.length_drop, List.drop_zero] at hk ⊢; omega)
        refine ⟨cs', h', ?_, e2, ?_⟩
        · rw [e1]
          simp only [Option.bind_eq_bind, Option.bind_some, Option.some.injEq, Prod.mk.injEq, true_and, List.drop_zero]
          rw [take_split _ _ _ (by rw [List.length_drop]; omega), List.take_of_length_le (by simp)]
          simp
        · rw [e3, drop_split _ _ _ (by rw [List.length_drop]; omega)]
          simp
      · have hm : min (k + 1) (c.length - head) = k + 1 := by omega
        rw [hm, if_neg (by omega), if_pos rfl]
        refine ⟨c :: cs, head + (k + 1), ?_, ⟨hok.1, by simp only; omega⟩, ?_⟩
        · rw [List.take_append_of_le_length (by simp; omega)]
        · rw [List.flatten_cons, List.drop_append_of_le_length (by omega),
            List.drop_append_of_le_length (by simp; omega), List.drop_drop]

theorem pop_spec (b : Ready) (hi : b.Inv) (k : Nat) :
    if k ≤ b.content.length then
      ∃ b', b.pop k = some (b', b.content.take k) ∧ b'.Inv ∧ b'.content = b.content.drop k
    else b.pop k = none := by
  have hs := hi.size
  split
  · rename_i hk
    unfold Ready.pop
    rw [if_neg (by omega)]
    by_cases h0 : k = 0
    · subst h0; rw [if_pos rfl]; exact ⟨b, by simp, hi, by simp⟩
    rw [if_neg h0]
    obtain ⟨chunks, head, size⟩ := b
    cases chunks with
    | nil => simp [Ready.content] at hk; omega
    | cons c cs =>
      have hok := hi.ok
      have hlt : head < c.length := hok.2
      have hc : (Ready.mk (c :: cs) head size).content = c.drop head ++ cs.flatten := by
        simp only [Ready.content]
        rw [List.flatten_cons, List.drop_append_of_le_length (by omega)]
      simp only
      by_cases hle : k ≤ c.length - head
      · rw [if_pos hle]
        by_cases he : head + k = c.length
        · rw [if_pos he]
          have hc' : (Ready.mk cs 0 (size - k)).content = List.drop k (c.drop head ++ cs.flatten) := by
            simp only [Ready.content, List.drop_zero]
            rw [drop_split _ _ _ (by rw [List.length_drop]; omega)]
            rw [show k - (List.drop head c).length = 0 by rw [List.length_drop]; omega, List.drop_zero]
          refine ⟨⟨cs, 0, size - k⟩, ?_, ⟨hok.tail, ?_⟩, ?_⟩
          · rw [hc, List.take_append_of_le_length (by simp; omega)]
          · rw [hc']; rw [hc] at hs; simp only at hs ⊢; rw [List.length_drop]; omega
          · rw [hc, hc']
        · rw [if_neg he]
          have hc' : (Ready.mk (c :: cs) (head + k) (size - k)).content = List.drop k (c.drop head ++ cs.flatten) := by
            simp only [Ready.content]
            rw [List.flatten_cons, List.drop_append_of_le_length (by omega),
              List.drop_append_of_le_length (by simp; omega), List.drop_drop]
          refine ⟨⟨c :: cs, head + k, size - k⟩, ?_, ⟨⟨hok.1, by simp only; omega⟩, ?_⟩, ?_⟩
          · rw [hc, List.take_append_of_le_length (by simp; omega)]
          · rw [hc']; rw [hc] at hs; simp only at hs ⊢; rw [List.length_drop]; omega
          · rw [hc, hc']
      · rw [if_neg hle]
        obtain ⟨cs', h', e1, e2, e3⟩ := popLoop_spec (c :: cs) head k hok hk
        simp only [e1, Option.bind_eq_bind, Option.bind_some]
        refine ⟨_, rfl, ⟨e2, ?_⟩, e3⟩
        simp only [Ready.content] at hs ⊢
        rw [e3, List.length_drop]; omega
  · unfold Ready.pop
    rw [if_pos (by omega)]

theorem extend_spec (b : Ready) (hi : b.Inv) (v : List UInt64) :
    (b.extend v).Inv ∧ (b.extend v).content = b.content ++ v := by
  unfold Ready.extend
  by_cases hv : v.length ≠ 0
  · rw [if_pos hv]
    have hle : b.head ≤ b.chunks.flatten.length := by
      have := hi.ok.2
      cases hc : b.chunks with
      | nil => rw [hc] at this; simp at this; simp [this]
      | cons c cs => rw [hc] at this; simp only at this; simp; omega
    have hcont : (Ready.mk (b.chunks ++ [v]) b.head (b.size + v.length)).content = b.content ++ v := by
      simp only [Ready.content, List.flatten_append, List.flatten_singleton]
      rw [List.drop_append_of_le_length hle]
    refine ⟨⟨⟨?_, ?_⟩, ?_⟩, hcont⟩
    · intro c hc
      simp at hc
      rcases hc with hc | rfl
      · exact hi.ok.1 c hc
      · rintro rfl; simp at hv
    · have := hi.ok.2
      cases hc : b.chunks with
      | nil => rw [hc] at this; simp only at this; simp only [List.nil_append]; omega
      | cons c cs => rw [hc] at this; simpa using this
    · rw [hcont, List.length_append, ← hi.size]
  · rw [if_neg hv]
    have : v = [] := by simpa using hv
    subst this
    exact ⟨hi, by simp⟩

theorem Ready.Inv.init : Ready.init.Inv := ⟨⟨by simp [Ready.init], rfl⟩, rfl⟩

theorem state_spec (b : Ready) (hi : b.Inv) : b.state = idsToBytes b.content := by
  unfold Ready.state
  split
  · rename_i h
    have : b.content = [] := List.length_eq_zero_iff.mp (by rw [← hi.size, h])
    rw [this]; rfl
  · cases hc : b.chunks with
    | nil => simp [Ready.content, hc, idsToBytes]
    | cons c cs =>
      have := hi.ok.2
      rw [hc] at this
      simp only at this ⊢
      simp only [Ready.content, hc]
      rw [List.flatten_cons, List.drop_append_of_le_length (by omega)]

theorem saveRestore_spec (b : Ready) (hi : b.Inv) :
    ∃ b', Ready.restore b.state = some b' ∧ b'.Inv ∧ b'.content = b.content := by
  unfold Ready.restore
  rw [state_spec b hi, if_neg (by rw [idsToBytes_length]; omega), bytes_roundtrip]
  have := extend_spec Ready.init Ready.Inv.init b.content
  exact ⟨_, rfl, this.1, by rw [this.2]; simp [Ready.content, Ready.init]⟩

end Verif.Reservoir
