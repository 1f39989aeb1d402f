import Verif.Sampler.Spec
import Mathlib.Tactic.Linarith
import Mathlib.Tactic.Ring
import Mathlib.Data.List.Range
import Mathlib.Data.List.Nodup

namespace Verif.Sampler

/-- A token and its batch agree with the stream. -/
def Seg (c : Cfg) (B : Nat) (drop : Bool) (b : List Nat) (t : Token) : Prop :=
  (t.aE = t.bE ∧ t.bO < t.aO ∧ t.aO ≤ c.local ∧ b = ((rankStream c t.aE).drop t.bO).take (t.aO - t.bO) ∧ (drop = true → B ∣ t.aO)) ∨
  (t.aE = t.bE + 1 ∧ t.bO = usable c B drop ∧ 0 < t.aO ∧ t.aO ≤ c.local ∧ b = (rankStream c t.aE).take t.aO ∧ (drop = true → B ∣ t.aO))

def Chain (c : Cfg) (B : Nat) (drop : Bool) : Nat × Nat → List (List Nat × Token) → Nat × Nat → Prop
  | p, [], q => p = q
  | p, x :: l, q => (x.2.bE, x.2.bO) = p ∧ Seg c B drop x.1 x.2 ∧ Chain c B drop (x.2.aE, x.2.aO) l q

variable {c : Cfg} {B : Nat} {drop : Bool}

theorem rankStream_length (e : Nat) : (rankStream c e).length = c.local := by simp [rankStream]

theorem seg_upTo {b : List Nat} {t : Token} (h : Seg c B drop b t) :
    upToPos c B drop (t.aE, t.aO) = upToPos c B drop (t.bE, t.bO) ++ b := by
  unfold upToPos
  rcases h with ⟨h1, h2, h3, h4, _⟩ | ⟨h1, h2, h3, h4, h5, _⟩
  · simp only [h1, h4, List.append_assoc]
    congr 1
    rw [show t.aO = t.bO + (t.aO - t.bO) by omega, List.take_add]
    simp
  · simp only [h1, h5, List.range_succ, List.flatMap_append, List.flatMap_cons, List.flatMap_nil, List.append_nil, h2]

theorem seg_le {b : List Nat} {t : Token} (h : Seg c B drop b t) : t.bE ≤ t.aE := by
  rcases h with ⟨h1, _⟩ | ⟨h1, _⟩ <;> omega

theorem seg_aO {b : List Nat} {t : Token} (h : Seg c B drop b t) : t.aO ≤ c.local ∧ (drop = true → B ∣ t.aO) := by
  rcases h with ⟨_, _, h, _, h'⟩ | ⟨_, _, _, h, _, h'⟩ <;> exact ⟨h, h'⟩

theorem chain_upTo : ∀ {l : List (List Nat × Token)} {p q : Nat × Nat}, Chain c B drop p l q →
    upToPos c B drop q = upToPos c B drop p ++ (l.map (·.1)).flatten
  | [], p, q, h => by rw [show p = q from h]; simp
  | x :: l, p, q, h => by
    obtain ⟨h1, h2, h3⟩ := h
    rw [chain_upTo h3, seg_upTo h2, h1]
    simp

theorem chain_append {l : List (List Nat × Token)} : ∀ {p q : Nat × Nat} {b : List Nat} {t : Token}, Chain c B drop p l q →
    (t.bE, t.bO) = q → Seg c B drop b t → Chain c B drop p (l ++ [(b, t)]) (t.aE, t.aO) := by
  induction l with
  | nil =>
    intro p q b t h h1 h2
    exact ⟨by rw [h1]; exact (show p = q from h).symm, h2, rfl⟩
  | cons x l ih =>
    intro p q b t h h1 h2
    exact ⟨h.1, h.2.1, ih h.2.2 h1 h2⟩

theorem chain_split : ∀ {l : List (List Nat × Token)} {p q : Nat × Nat} (k : Nat), Chain c B drop p l q →
    ∃ m, Chain c B drop p (l.take k) m ∧ Chain c B drop m (l.drop k) q
  | l, p, q, 0, h => ⟨p, rfl, h⟩
  | [], p, q, k + 1, h => ⟨p, rfl, h⟩
  | x :: l, p, q, k + 1, h => by
    obtain ⟨m, h1, h2⟩ := chain_split k h.2.2
    exact ⟨m, ⟨h.1, h.2.1, h1⟩, h2⟩

theorem chain_le : ∀ {l : List (List Nat × Token)} {p q : Nat × Nat}, Chain c B drop p l q → p.1 ≤ q.1
  | [], p, q, h => by rw [show p = q from h]
  | x :: l, p, q, h => by
    obtain ⟨h1, h2, h3⟩ := h
    have := chain_le h3
    have := seg_le h2
    rw [← h1]
    simp only at *
    omega

theorem chain_end : ∀ {l : List (List Nat × Token)} {p q : Nat × Nat}, Chain c B drop p l q → p.2 ≤ c.local → (drop = true → B ∣ p.2) →
    q.2 ≤ c.local ∧ (drop = true → B ∣ q.2)
  | [], p, q, h, h1, h2 => by rw [← show p = q from h]; exact ⟨h1, h2⟩
  | x :: l, p, q, h, _, _ => by
    obtain ⟨_, h2, h3⟩ := h
    exact chain_end h3 (seg_aO h2).1 (seg_aO h2).2

/-- `prepare_commit` walks a chain to its end. -/
theorem walk_chain {s : St} : ∀ {l : List (List Nat × Token)} {p q : Nat × Nat}, Chain c B drop p l q → s.epoch ≤ p.1 → q.1 ≤ s.yE →
    walk c s p (l.map (·.2)) = some q
  | [], p, q, h, _, _ => by rw [show p = q from h]; rfl
  | x :: l, p, q, h, he, hy => by
    obtain ⟨h1, h2, h3⟩ := h
    have e1 := seg_le h2
    have e2 := chain_le h3
    have e3 := (seg_aO h2).1
    have e4 : x.2.bE = p.1 := by rw [← h1]
    simp only at e2
    rw [List.map_cons, walk, if_neg (by simpa using h1), if_neg (by omega), if_neg (by omega)]
    exact walk_chain h3 (by simp only; omega) hy

/-- The invariant. -/
structure RInv (c : Cfg) (B : Nat) (drop : Bool) (r : Run) : Prop where
  chain : Chain c B drop (r.s.epoch, r.s.offset) r.outstanding (r.s.sE, r.s.sO)
  committed : r.committed = upToPos c B drop (r.s.epoch, r.s.offset)
  yle : r.s.sE ≤ r.s.yE ∧ r.s.yE ≤ r.s.sE + 1
  off : r.s.offset ≤ c.local
  offd : drop = true → B ∣ r.s.offset
  yO : r.s.yO ≤ c.local
  same : r.s.yE = r.s.sE → r.s.sO ≤ r.s.yO ∧ r.buf = ((rankStream c r.s.yE).drop r.s.sO).take (r.s.yO - r.s.sO)
  next : r.s.yE = r.s.sE + 1 → r.s.sO = usable c B drop ∧ r.buf = (rankStream c r.s.yE).take r.s.yO

theorem RInv.sO {r : Run} (h : RInv c B drop r) : r.s.sO ≤ c.local ∧ (drop = true → B ∣ r.s.sO) :=
  chain_end h.chain h.off h.offd

theorem rinv_reset {r : Run} (h : RInv c B drop r) (e o : Nat) (he : e = r.s.epoch) (ho : o = r.s.offset) :
    RInv c B drop { r with s := ⟨e, o, e, o, e, o⟩, buf := [], outstanding := [] } := by
  subst he ho
  exact ⟨rfl, h.committed, ⟨Nat.le_refl _, Nat.le_succ _⟩, h.off, h.offd, h.off, fun _ => ⟨Nat.le_refl _, by simp⟩, fun h => by simp at h⟩

theorem load_save (c : Cfg) (s : St) (h : s.offset ≤ c.local) :
    load c (save c s) = some ⟨s.epoch, s.offset, s.epoch, s.offset, s.epoch, s.offset⟩ := by
  unfold load save
  simp only
  rw [if_neg (by omega), if_neg (by simp), if_neg (by omega)]

/-- What `stage` does in a reachable state. -/
theorem stage_eq {r : Run} (h : RInv c B drop r) (hB : 0 < B) {b : List Nat} (hne : b ≠ []) (hpre : b <+: r.buf)
    (hlen : b.length = B ∨ (b = r.buf ∧ r.buf.length < B ∧ r.s.yO = c.local ∧ drop = false)) :
    ∃ t s', stage c r.s B = some (t, s') ∧ (t.bE, t.bO) = (r.s.sE, r.s.sO) ∧ Seg c B drop b t ∧
      s' = { r.s with sE := t.aE, sO := t.aO } ∧ t.aE = r.s.yE ∧
      t.aO = (if r.s.yE = r.s.sE then r.s.sO else 0) + b.length ∧ t.aO ≤ r.s.yO := by
  have hyO := h.yO
  have hsO := h.sO
  have hbl : 0 < b.length := List.length_pos_iff.mpr hne
  have hb : b = r.buf.take b.length := (List.prefix_iff_eq_take.mp hpre)
  have hble : b.length ≤ r.buf.length := hpre.length_le
  by_cases hE : r.s.yE = r.s.sE
  · obtain ⟨h1, h2⟩ := h.same hE
    have hbuf : r.buf.length = r.s.yO - r.s.sO := by
      rw [h2, List.length_take, List.length_drop, rankStream_length]; omega
    have hdel : min B (c.local - r.s.sO) = b.length := by rcases hlen with hl | ⟨hl, hl2, hl3, _⟩ <;> [skip; rw [hl]] <;> omega
    have hse : stageEpoch r.s = some r.s := by unfold stageEpoch; rw [if_neg (by omega), if_neg (by simpa using hE)]
    refine ⟨⟨r.s.sE, r.s.sO, r.s.sE, r.s.sO + b.length⟩, { r.s with sO := r.s.sO + b.length }, ?_, rfl, ?_, rfl, hE.symm, by rw [if_pos hE],
      by show r.s.sO + b.length ≤ _; omega⟩
    · unfold stage
      rw [if_neg (by omega), hse]
      simp only [hdel]
      rw [if_neg (by omega)]
    · refine Or.inl ⟨rfl, by show r.s.sO < r.s.sO + b.length; omega, by show r.s.sO + b.length ≤ _; omega, ?_, ?_⟩
      · show b = ((rankStream c r.s.sE).drop r.s.sO).take (r.s.sO + b.length - r.s.sO)
        rw [Nat.add_sub_cancel_left, ← hE]
        conv_lhs => rw [hb, h2]
        rw [List.take_take, Nat.min_eq_left (by omega)]
      · intro hd
        show B ∣ r.s.sO + b.length
        rcases hlen with hl | ⟨_, _, _, hf⟩
        · rw [hl]; exact Nat.dvd_add (hsO.2 hd) (Nat.dvd_refl B)
        · rw [hf] at hd; simp at hd
  · have hE' : r.s.yE = r.s.sE + 1 := by have := h.yle; omega
    obtain ⟨h1, h2⟩ := h.next hE'
    have hbuf : r.buf.length = r.s.yO := by
      rw [h2, List.length_take, rankStream_length]; omega
    have hdel : min B (c.local - 0) = b.length := by rcases hlen with hl | ⟨hl, hl2, hl3, _⟩ <;> [skip; rw [hl]] <;> omega
    have hse : stageEpoch r.s = some { r.s with sE := r.s.yE, sO := 0 } := by unfold stageEpoch; rw [if_pos hE']
    refine ⟨⟨r.s.sE, r.s.sO, r.s.yE, 0 + b.length⟩, { r.s with sE := r.s.yE, sO := 0 + b.length }, ?_, rfl, ?_, rfl, rfl, by rw [if_neg hE],
      by show 0 + b.length ≤ _; omega⟩
    · unfold stage
      rw [if_neg (by omega), hse]
      simp only [hdel]
      rw [if_neg (by omega)]
    · refine Or.inr ⟨hE', h1, by show 0 < _ + _; omega, by show _ + _ ≤ _; omega, ?_, ?_⟩
      · show b = (rankStream c r.s.yE).take (0 + b.length)
        rw [Nat.zero_add]
        conv_lhs => rw [hb, h2]
        rw [List.take_take, Nat.min_eq_left (by omega)]
      · intro hd
        show B ∣ 0 + b.length
        rcases hlen with hl | ⟨_, _, _, hf⟩
        · rw [hl, Nat.zero_add]
        · rw [hf] at hd; simp at hd

theorem buf_after {r : Run} (h : RInv c B drop r) {k : Nat} (_hk : k ≤ r.buf.length) :
    r.buf.drop k = ((rankStream c r.s.yE).drop ((if r.s.yE = r.s.sE then r.s.sO else 0) + k)).take
      (r.s.yO - ((if r.s.yE = r.s.sE then r.s.sO else 0) + k)) := by
  by_cases hE : r.s.yE = r.s.sE
  · obtain ⟨h1, h2⟩ := h.same hE
    rw [if_pos hE, h2, List.drop_take, List.drop_drop]
    congr 1
    omega
  · have hE' : r.s.yE = r.s.sE + 1 := by have := h.yle; omega
    obtain ⟨h1, h2⟩ := h.next hE'
    rw [if_neg hE, h2, List.drop_take, Nat.zero_add]

theorem rinv_deliver {r : Run} (h : RInv c B drop r) (hB : 0 < B) {b : List Nat} (hne : b ≠ []) (hpre : b <+: r.buf)
    (hlen : b.length = B ∨ (b = r.buf ∧ r.buf.length < B ∧ r.s.yO = c.local ∧ drop = false)) {t : Token} {s' : St}
    (hs : stage c r.s B = some (t, s')) :
    RInv c B drop { r with s := s', buf := r.buf.drop b.length, outstanding := r.outstanding ++ [(b, t)] } := by
  obtain ⟨t', s'', e1, e2, e3, e4, e5, e6, e7⟩ := stage_eq h hB hne hpre hlen
  rw [hs] at e1
  simp only [Option.some.injEq, Prod.mk.injEq] at e1
  obtain ⟨rfl, rfl⟩ := e1
  subst e4
  have hba := buf_after h hpre.length_le
  refine ⟨chain_append h.chain e2 e3, h.committed, ⟨by show t.aE ≤ r.s.yE; omega, by show r.s.yE ≤ t.aE + 1; omega⟩, h.off, h.offd, h.yO, ?_, ?_⟩
  · intro _
    refine ⟨e7, ?_⟩
    show r.buf.drop b.length = ((rankStream c r.s.yE).drop t.aO).take (r.s.yO - t.aO)
    rw [hba, e6]
  · intro hc
    have hc' : r.s.yE = t.aE + 1 := hc
    omega

theorem rinv_op (hB : 0 < B) {r r' : Run} (h : RInv c B drop r) (ho : Op c B drop r r') : RInv c B drop r' := by
  cases ho with
  | @pull i s' hn =>
    unfold Sampler.next at hn
    split at hn
    · next hlt =>
      simp only [Option.some.injEq, Prod.mk.injEq] at hn
      obtain ⟨hi, rfl⟩ := hn
      have hget : ∀ (hlt : r.s.yO < (rankStream c r.s.yE).length), (rankStream c r.s.yE)[r.s.yO] = i := by
        intro hlt
        rw [← hi]
        simp [rankStream]
      refine ⟨h.chain, h.committed, h.yle, h.off, h.offd, hlt, ?_, ?_⟩
      · intro hE
        obtain ⟨h1, h2⟩ := h.same hE
        refine ⟨by show r.s.sO ≤ r.s.yO + 1; omega, ?_⟩
        show r.buf ++ [i] = ((rankStream c r.s.yE).drop r.s.sO).take (r.s.yO + 1 - r.s.sO)
        rw [h2, show r.s.yO + 1 - r.s.sO = (r.s.yO - r.s.sO) + 1 by omega]
        have hl : r.s.yO - r.s.sO < ((rankStream c r.s.yE).drop r.s.sO).length := by
          rw [List.length_drop, rankStream_length]; omega
        rw [List.take_succ_eq_append_getElem hl]
        congr 2
        rw [List.getElem_drop]
        have : r.s.sO + (r.s.yO - r.s.sO) = r.s.yO := by omega
        simp only [this]
        exact (hget (by rw [rankStream_length]; exact hlt)).symm
      · intro hE
        obtain ⟨h1, h2⟩ := h.next hE
        refine ⟨h1, ?_⟩
        show r.buf ++ [i] = (rankStream c r.s.yE).take (r.s.yO + 1)
        have hl : r.s.yO < (rankStream c r.s.yE).length := by rw [rankStream_length]; exact hlt
        rw [h2, List.take_succ_eq_append_getElem hl, hget hl]
    · simp at hn
  | @deliver t s' hlen hs =>
    have hbl : (r.buf.take B).length = B := by rw [List.length_take]; omega
    have := rinv_deliver h hB (b := r.buf.take B) (by intro h0; rw [h0] at hbl; simp at hbl; omega) (List.take_prefix ..) (Or.inl hbl) hs
    rw [hbl] at this
    exact this
  | @tail t s' hd hn hne hlt hs =>
    have hyO : r.s.yO = c.local := by
      have := h.yO
      unfold Sampler.next at hn
      split at hn
      · simp at hn
      · omega
    have := rinv_deliver h hB (b := r.buf) hne (List.prefix_refl _) (Or.inr ⟨rfl, hlt, hyO, hd⟩) hs
    rw [List.drop_length] at this
    exact this
  | @restart s' hn hlt hdr hE hadv =>
    have hyO : r.s.yO = c.local := by
      have := h.yO
      unfold Sampler.next at hn
      split at hn
      · simp at hn
      · omega
    unfold advance at hadv
    rw [if_neg (by omega)] at hadv
    simp only [Option.some.injEq] at hadv
    subst hadv
    obtain ⟨h1, h2⟩ := h.same hE
    have hbl : r.buf.length = c.local - r.s.sO := by
      rw [h2, List.length_take, List.length_drop, rankStream_length]; omega
    refine ⟨h.chain, h.committed, ⟨by show r.s.sE ≤ r.s.yE + 1; omega, by show r.s.yE + 1 ≤ r.s.sE + 1; omega⟩, h.off, h.offd, Nat.zero_le _, ?_, ?_⟩
    · intro hc
      have hc' : r.s.yE + 1 = r.s.sE := hc
      omega
    · intro _
      refine ⟨?_, by simp⟩
      show r.s.sO = usable c B drop
      unfold usable
      obtain ⟨hs1, hs2⟩ := h.sO
      cases hd : drop with
      | false =>
        have := hdr hd
        rw [this] at hbl
        simp at hbl
        simp
        omega
      | true =>
        obtain ⟨q, hq⟩ := hs2 hd
        simp only [if_true]
        have hmod : c.local % B = c.local - r.s.sO := by
          have : c.local = (c.local - r.s.sO) + B * q := by omega
          conv_lhs => rw [this]
          rw [Nat.add_mul_mod_self_left]
          exact Nat.mod_eq_of_lt (by omega)
        omega
  | @commit k s' hc =>
    unfold Sampler.commit at hc
    split at hc
    · simp at hc
    · obtain ⟨m, hm1, hm2⟩ := chain_split k h.chain
      have hle := chain_le hm2
      simp only at hle
      have hy := h.yle
      rw [walk_chain hm1 (Nat.le_refl _) (by omega)] at hc
      simp only [Option.map_some, Option.some.injEq] at hc
      subst hc
      obtain ⟨hend1, hend2⟩ := chain_end hm1 h.off h.offd
      refine ⟨hm2, ?_, h.yle, hend1, hend2, h.yO, h.same, h.next⟩
      show r.committed ++ _ = upToPos c B drop m
      rw [h.committed, chain_upTo hm1]
  | rollback => exact rinv_reset h _ _ rfl rfl
  | @resume s' hl =>
    rw [load_save c r.s h.off] at hl
    simp only [Option.some.injEq] at hl
    subst hl
    exact rinv_reset h _ _ rfl rfl

theorem rinv_hist (hB : 0 < B) {r : Run} (h : Hist c B drop r) : RInv c B drop r := by
  induction h with
  | init =>
    refine ⟨rfl, by simp [upToPos, St.init], by simp [St.init], by simp [St.init], by simp [St.init], by simp [St.init], by simp [St.init], by simp [St.init]⟩
  | step _ ho ih => exact rinv_op hB ih ho

end Verif.Sampler
