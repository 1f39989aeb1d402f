import Verif.Sampler.Lemmas33

/-!
# C33: the resumable sampler
-/
namespace Verif.Sampler

theorem perm_getD {n : Nat} {p : List Nat} (hp : p.Perm (List.range n)) : (List.range n).map (fun i => p.getD i 0) = p := by
  have hl : p.length = n := by rw [hp.length_eq, List.length_range]
  apply List.ext_getElem
  · simp [hl]
  · intro i h1 h2
    simp [h2]

/-- **C33 (partition).** In every epoch the streams of the ranks together are duplicate-free and contain every index except
fewer than `world_size`. -/
theorem C33_ranks_partition (c : Cfg) (hw : 0 < c.world) (e : Nat) (hp : (c.perm e).Perm (List.range c.length)) :
    ∃ rest, (((List.range c.world).flatMap fun r => rankStream { c with rank := r } e) ++ rest).Perm (List.range c.length) ∧
      rest.length < c.world := by
  have hL : c.local = c.length / c.world := rfl
  have hdm := Nat.div_add_mod c.length c.world
  have hml := Nat.mod_lt c.length hw
  set f : Nat → Nat := fun i => (c.perm e).getD i 0 with hf
  set W := c.world with hW
  set L := c.local with hLL
  set P : List Nat := (List.range W).flatMap fun r => (List.range L).map fun o => o * W + r with hP
  have hmem : ∀ i, i ∈ P ↔ i < W * L := by
    intro i
    simp only [hP, List.mem_flatMap, List.mem_range, List.mem_map]
    constructor
    · rintro ⟨r, hr, o, ho, rfl⟩
      have : (o + 1) * W ≤ L * W := Nat.mul_le_mul_right _ ho
      rw [Nat.add_mul] at this
      rw [Nat.mul_comm W L]
      omega
    · intro hi
      refine ⟨i % W, Nat.mod_lt _ hw, i / W, ?_, ?_⟩
      · rw [Nat.div_lt_iff_lt_mul hw, Nat.mul_comm]; exact hi
      · rw [Nat.mul_comm]; exact Nat.div_add_mod i W
  have hnd : P.Nodup := by
    rw [hP, List.nodup_flatMap]
    refine ⟨fun r _ => ?_, ?_⟩
    · refine List.Nodup.map_on ?_ (List.nodup_range (n := L))
      intro x _ y _ hxy
      have : x * W = y * W := by omega
      exact Nat.eq_of_mul_eq_mul_right hw this
    · have : (List.range W).Pairwise (fun a b => a < b) := List.pairwise_lt_range
      refine this.imp_of_mem ?_
      intro a b ha hb hab
      rw [Function.onFun, List.disjoint_left]
      intro x hx hy
      simp only [List.mem_map, List.mem_range] at hx hy ha hb
      obtain ⟨o, _, rfl⟩ := hx
      obtain ⟨o', _, he⟩ := hy
      have h1 : (o * W + a) % W = a := by rw [Nat.add_comm, Nat.add_mul_mod_self_right]; exact Nat.mod_eq_of_lt ha
      have h2 : (o' * W + b) % W = b := by rw [Nat.add_comm, Nat.add_mul_mod_self_right]; exact Nat.mod_eq_of_lt hb
      rw [he] at h2
      omega
  refine ⟨(List.range' (W * L) (c.length - W * L)).map f, ?_, ?_⟩
  · have h1 : ((List.range W).flatMap fun r => rankStream { c with rank := r } e) = P.map f := by
      rw [hP, List.map_flatMap]
      congr 1
      funext r
      simp only [rankStream, List.map_map]
      rfl
    rw [h1, ← List.map_append]
    have h2 : (P ++ List.range' (W * L) (c.length - W * L)).Perm (List.range c.length) := by
      rw [List.perm_ext_iff_of_nodup]
      · intro i
        rw [List.mem_append, hmem, List.mem_range'_1, List.mem_range]
        have : W * L ≤ c.length := by rw [hL]; exact Nat.mul_div_le _ _
        omega
      · rw [List.nodup_append]
        refine ⟨hnd, List.nodup_range' .., ?_⟩
        intro a ha b hb hab
        rw [hmem] at ha
        rw [List.mem_range'_1] at hb
        omega
      · exact List.nodup_range
    have h3 := h2.map f
    rw [hf, perm_getD hp] at h3
    exact h3.trans hp
  · rw [List.length_map, List.length_range']
    rw [← hL] at hdm
    omega

/-- **C33 (exactly once).** After any history of read-ahead, staging, commits, failures and resumes in new processes, the indices of
the committed batches are exactly the rank's stream up to the checkpoint position: every earlier epoch (without the incomplete
last batch when `drop_last`), then the first `offset` samples of the current one. -/
theorem C33_committed_exact (c : Cfg) (B : Nat) (drop : Bool) (hB : 0 < B) (r : Run) (h : Hist c B drop r) :
    r.committed = upToPos c B drop (r.s.epoch, r.s.offset) := (rinv_hist hB h).committed

/-- The delivered but uncommitted batches continue the stream without gap. -/
theorem C33_outstanding_continue (c : Cfg) (B : Nat) (drop : Bool) (hB : 0 < B) (r : Run) (h : Hist c B drop r) :
    r.committed ++ (r.outstanding.map (·.1)).flatten = upToPos c B drop (r.s.sE, r.s.sO) := by
  have hi := rinv_hist hB h
  rw [hi.committed]
  exact (chain_upTo hi.chain).symm

/-- Everything the sampler yields from a state to the end of its epoch. -/
def yields (c : Cfg) : Nat → St → List Nat
  | 0, _ => []
  | fuel + 1, s =>
    match next c s with
    | none => []
    | some (i, s') => i :: yields c fuel s'

theorem yields_eq (c : Cfg) : ∀ (fuel : Nat) (s : St), c.local ≤ s.yO + fuel → yields c fuel s = (rankStream c s.yE).drop s.yO
  | 0, s, h => by
    rw [yields]
    exact (List.drop_eq_nil_of_le (by rw [rankStream_length]; omega)).symm
  | fuel + 1, s, h => by
    rw [yields]
    by_cases hlt : s.yO < c.local
    · have hn : next c s = some ((c.perm s.yE).getD (s.yO * c.world + c.rank) 0, { s with yO := s.yO + 1 }) := by
        unfold next; rw [if_pos hlt]
      rw [hn]
      simp only
      rw [yields_eq c fuel _ (by show c.local ≤ s.yO + 1 + fuel; omega)]
      have hl : s.yO < (rankStream c s.yE).length := by rw [rankStream_length]; exact hlt
      rw [List.drop_eq_getElem_cons hl]
      congr 1
      simp [rankStream]
    · have hn : next c s = none := by unfold next; rw [if_neg hlt]
      rw [hn]
      exact (List.drop_eq_nil_of_le (by rw [rankStream_length]; omega)).symm

/-- **C33 (resume).** The state saved at any moment is accepted by a sampler of the same configuration, which then yields exactly the
rest of the current epoch after the committed position; the saved state does not depend on uncommitted read-ahead. -/
theorem C33_resume_suffix (c : Cfg) (B : Nat) (drop : Bool) (hB : 0 < B) (r : Run) (h : Hist c B drop r) :
    ∃ s', load c (save c r.s) = some s' ∧ yields c (c.local + 1) s' = (rankStream c r.s.epoch).drop r.s.offset ∧
      save c s' = save c r.s ∧ s' = rollback r.s := by
  have hi := rinv_hist hB h
  refine ⟨_, load_save c r.s hi.off, ?_, rfl, rfl⟩
  rw [yields_eq c _ _ (by simp only; omega)]

/-- **C33 (no spurious failure).** In every reachable state a full batch of read indices can be staged, any non-empty initial part of the
outstanding batches can be committed, and the loader restart is accepted. -/
theorem C33_never_rejected (c : Cfg) (B : Nat) (drop : Bool) (hB : 0 < B) (r : Run) (h : Hist c B drop r) :
    (B ≤ r.buf.length → ∃ t s', stage c r.s B = some (t, s') ∧ t.aO ≤ r.s.yO) ∧
    (∀ k, 0 < k → r.outstanding ≠ [] → ∃ s', commit c r.s ((r.outstanding.take k).map (·.2)) = some s') ∧
    (next c r.s = none → ∃ s', advance c r.s = some s') := by
  have hi := rinv_hist hB h
  refine ⟨fun hl => ?_, fun k hk hne => ?_, fun hn => ?_⟩
  · have hbl : (r.buf.take B).length = B := by rw [List.length_take]; omega
    obtain ⟨t, s', h1, _, _, _, _, _, h7⟩ :=
      stage_eq hi hB (b := r.buf.take B) (by intro h0; rw [h0] at hbl; simp at hbl; omega) (List.take_prefix ..) (Or.inl hbl)
    exact ⟨t, s', h1, h7⟩
  · obtain ⟨m, hm1, hm2⟩ := chain_split k hi.chain
    have hle := chain_le hm2
    simp only at hle
    have hy := hi.yle
    unfold commit
    rw [if_neg, walk_chain hm1 (Nat.le_refl _) (by omega)]
    · exact ⟨_, rfl⟩
    · cases ho : r.outstanding with
      | nil => exact absurd ho hne
      | cons x l =>
        obtain ⟨k', rfl⟩ : ∃ k', k = k' + 1 := ⟨k - 1, by omega⟩
        simp
  · unfold next at hn
    split at hn
    · simp at hn
    · next hnl => exact ⟨_, by unfold advance; rw [if_neg hnl]⟩

/-- **C33 (restore check).** A saved state (current format) is accepted exactly when length, shuffling, seed and topology agree and the
offset lies in the rank's partition. -/
theorem C33_load_iff (c : Cfg) (v : Saved) (hv : v.version ≠ 1) :
    (∃ s, load c v = some s) ↔ v.version = 2 ∧ v.length = c.length ∧ v.shuffle = c.shuffle ∧ v.seed = c.seed ∧
      v.world = some c.world ∧ v.rank = some c.rank ∧ v.offset ≤ c.length / c.world := by
  unfold load
  rw [if_neg hv]
  by_cases h : (v.version, v.length, v.shuffle, v.seed, v.world, v.rank) ≠ (2, c.length, c.shuffle, c.seed, some c.world, some c.rank)
  · rw [if_pos h]
    simp only [reduceCtorEq, exists_false, false_iff]
    intro hh
    exact h (by simp [hh])
  · rw [if_neg h]
    rw [not_not] at h
    simp only [Prod.mk.injEq] at h
    obtain ⟨h1, h2, h3, h4, h5, h6⟩ := h
    by_cases ho : c.local < v.offset
    · rw [if_pos ho]
      simp only [reduceCtorEq, exists_false, false_iff]
      intro hh
      have : v.offset ≤ c.local := hh.2.2.2.2.2.2
      omega
    · rw [if_neg ho]
      exact ⟨fun _ => ⟨h1, h2, h3, h4, h5, h6, Nat.le_of_not_lt ho⟩, fun _ => ⟨_, rfl⟩⟩

/-- A commit whose tokens do not start at the committed position, or are not contiguous, is rejected. -/
theorem C33_rejects_gap (c : Cfg) (s s' : St) (ts : List Token) (h : commit c s ts = some s') :
    ts ≠ [] ∧ ts.head?.map (fun t => (t.bE, t.bO)) = some (s.epoch, s.offset) ∧
    (∀ a t u b, ts = a ++ t :: u :: b → (t.aE, t.aO) = (u.bE, u.bO)) ∧
    ts.getLast?.map (fun t => (t.aE, t.aO)) = some (s'.epoch, s'.offset) := by
  have key : ∀ (ts : List Token) (p q : Nat × Nat), walk c s p ts = some q →
      (∀ t r, ts = t :: r → (t.bE, t.bO) = p) ∧ (∀ a t u b, ts = a ++ t :: u :: b → (t.aE, t.aO) = (u.bE, u.bO)) ∧
      (∀ t, ts.getLast? = some t → (t.aE, t.aO) = q) := by
    intro ts
    induction ts with
    | nil => intro p q _; simp
    | cons t ts ih =>
      intro p q hw
      rw [walk] at hw
      split at hw
      · simp at hw
      · next h1 =>
        split at hw
        · simp at hw
        · split at hw
          · simp at hw
          · obtain ⟨i1, i2, i3⟩ := ih _ _ hw
            refine ⟨?_, ?_, ?_⟩
            · intro t' r he
              simp only [List.cons.injEq] at he
              rw [← he.1]
              simpa using h1
            · intro a t' u b he
              cases a with
              | nil =>
                simp only [List.nil_append, List.cons.injEq] at he
                obtain ⟨rfl, rfl⟩ := he
                exact (i1 u b rfl).symm
              | cons x a =>
                simp only [List.cons_append, List.cons.injEq] at he
                exact i2 a t' u b he.2
            · intro t' ht'
              cases ts with
              | nil =>
                simp only [List.getLast?_singleton, Option.some.injEq] at ht'
                subst ht'
                simpa [walk] using hw
              | cons u r =>
                rw [List.getLast?_cons_cons] at ht'
                exact i3 t' ht'
  unfold commit at h
  split at h
  · simp at h
  · next hne =>
    cases hw : walk c s (s.epoch, s.offset) ts with
    | none => rw [hw] at h; simp at h
    | some q =>
      rw [hw] at h
      simp only [Option.map_some, Option.some.injEq] at h
      subst h
      obtain ⟨i1, i2, i3⟩ := key ts _ _ hw
      refine ⟨hne, ?_, i2, ?_⟩
      · cases ts with
        | nil => exact absurd rfl hne
        | cons t r => simp only [List.head?_cons, Option.map_some, i1 t r rfl]
      · cases hl : ts.getLast? with
        | none => rw [List.getLast?_eq_none_iff] at hl; exact absurd hl hne
        | some t => simp only [Option.map_some, i3 t hl]

/-! ### Non-vacuity: 7 samples, 2 ranks, batches of 2, rank 1; one batch committed, another one delivered, then a crash -/

def demo : Cfg := ⟨7, true, 5, 1, 2, fun e => if e = 0 then [3, 0, 6, 1, 2, 5, 4] else List.range 7⟩

example : demo.local = 3 ∧ rankStream demo 0 = [0, 1, 5] ∧ rankStream demo 1 = [1, 3, 5] ∧ (demo.perm 0).Perm (List.range 7) := by
  refine ⟨rfl, rfl, rfl, by decide⟩

example : ∃ r, Hist demo 2 true r ∧ r.committed = [0, 1] ∧ r.s.offset = 2 ∧ (r.outstanding.map (·.1)) = [[1, 3]] := by
  have e1 := Hist.step (c := demo) (B := 2) (drop := true) .init (.pull rfl)
  have e2 := Hist.step e1 (.pull rfl)
  have e3 := Hist.step e2 (.deliver (by decide) rfl)
  have e4 := Hist.step e3 (.commit (k := 1) rfl)
  have e5 := Hist.step e4 (.pull rfl)
  have e6 := Hist.step e5 (.restart rfl (by decide) (by simp) rfl rfl)
  have e7 := Hist.step e6 (.pull rfl)
  have e8 := Hist.step e7 (.pull rfl)
  have e9 := Hist.step e8 (.deliver (by decide) rfl)
  exact ⟨_, e9, rfl, rfl, rfl⟩

end Verif.Sampler
