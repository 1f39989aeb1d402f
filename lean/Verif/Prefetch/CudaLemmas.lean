import Verif.Prefetch.CudaModel
import Mathlib.Tactic.Linarith

namespace Verif.Prefetch.Cuda
variable {α : Type}

/-- The popped batch in hand. -/
def Phase.cur : Phase α → List (Nat × α)
  | .fill (some x) => [x]
  | _ => []

def Phase.live : Phase α → Bool
  | .closing => false
  | .closed => false
  | _ => true

/-- Every `use i` in the stream comes after `wait i`. -/
def ordered (l : List Op) : Prop := ∀ a i b, l = a ++ .use i :: b → .wait i ∈ a

theorem ordered_wait {l : List Op} (h : ordered l) (i : Nat) : ordered (l ++ [.wait i]) := by
  intro a j b he
  rcases List.eq_nil_or_concat b with rfl | ⟨b', x, rfl⟩
  · have := congrArg List.getLast? he
    simp at this
  · rw [List.concat_eq_append] at he
    have he' : l ++ [Op.wait i] = (a ++ Op.use j :: b') ++ [x] := by rw [he]; simp
    have := (List.append_inj' he' rfl).1
    exact h a j b' this

theorem ordered_use {l : List Op} (h : ordered l) (i : Nat) (hm : .wait i ∈ l) : ordered (l ++ [.use i]) := by
  intro a j b he
  rcases List.eq_nil_or_concat b with rfl | ⟨b', x, rfl⟩
  · have he' : l ++ [Op.use i] = a ++ [Op.use j] := he
    obtain ⟨e1, e2⟩ := List.append_inj' he' rfl
    simp at e2
    rw [← e1, ← e2]
    exact hm
  · rw [List.concat_eq_append] at he
    have he' : l ++ [Op.use i] = (a ++ Op.use j :: b') ++ [x] := by rw [he]; simp
    have := (List.append_inj' he' rfl).1
    exact h a j b' this

structure CInv (P : Nat) (src : List (α × Bool)) (s : St α) : Prop where
  src : src = s.taken ++ s.rest
  flow : s.phase.live = true → s.taken.map (·.1) = s.out ++ s.phase.cur.map (·.2) ++ s.pending.map (·.2)
  flow' : ∃ t, s.taken.map (·.1) = s.out ++ t
  idx : s.pending.map (·.1) = List.range' (s.taken.length - s.pending.length) s.pending.length
  held : s.phase ≠ .closed → ∀ i, i + s.pending.length < s.taken.length → i ∈ s.retired ∨ i < s.copied
  closed : s.phase = .closed → s.copied = s.taken.length
  copied : s.copied ≤ s.taken.length
  pend : s.pending.length ≤ P
  ret : s.retired.length ≤ P + 1
  ret' : (match s.phase with | .pop => True | _ => False) → s.retired.length ≤ P
  open_ : s.exhausted = false → ∀ b ∈ s.taken, b.2 = false
  last : ∀ a b c, s.taken = a ++ b :: c → b.2 = true → c = []
  exh : s.exhausted = true → s.rest = [] ∨ ∃ a b, s.taken = a ++ [b] ∧ b.2 = true
  pulls : s.exhausted = false → s.pulls = s.taken.length
  pulls' : s.pulls ≤ s.taken.length + 1
  pulls'' : (∃ b ∈ s.taken, b.2 = true) → s.pulls = s.taken.length
  filled : (match s.phase with | .fill _ => False | .closing => False | .closed => False | _ => True) →
    s.exhausted = false → s.pending.length = P
  popped : (match s.phase with | .sync => True | .pop => True | _ => False) → s.pending ≠ []
  ord : ordered s.compute
  waited : ∀ x ∈ s.phase.cur, .wait x.1 ∈ s.compute
  uses : ∀ i, .use i ∈ s.compute ↔ i < s.out.length
  curIdx : ∀ x ∈ s.phase.cur, x.1 = s.out.length
  done : s.early = false → (match s.phase with | .closing => True | .closed => True | _ => False) →
    s.exhausted = true ∧ s.taken.map (·.1) = s.out
  retlt : ∀ i ∈ s.retired, i < s.taken.length

theorem cinv_start {P : Nat} (src : List (α × Bool)) : CInv P src (start src) := by
  constructor <;> simp [start, Phase.cur, Phase.live, ordered]

theorem cinv_step {P : Nat} (hP : 0 < P) {src : List (α × Bool)} {s s' : St α} (hi : CInv P src s) (h : Step P s s') : CInv P src s' := by
  obtain ⟨h1, h2, h2', h3, h4, h4', h5, h6, h7, h8, h9, h10, h11, h12, h13, h13', h14, h15, h16, h17, h18, h18', h19, h20⟩ := hi
  cases h with
  | @fill cur hph hlt hex =>
    unfold enqueue
    cases hr : s.rest with
    | nil =>
      simp only
      refine ⟨by rw [h1, hr], h2, h2', h3, h4, h4', h5, h6, h7, h8, by simp, h10, fun _ => Or.inl rfl, by simp, ?_, ?_, by simp [hph], h15, h16, h17, h18, h18', ?_, h20⟩
      · show s.pulls + 1 ≤ _
        rw [h12 hex]
      · rintro ⟨b, hb, hbt⟩
        have := h9 hex b hb
        rw [this] at hbt; simp at hbt
      · simp only [hph]; simp
    | cons xt r =>
      obtain ⟨x, t⟩ := xt
      simp only
      have hno := h9 hex
      refine ⟨by rw [h1, hr]; simp, ?_, ?_, ?_, ?_, ?_, ?_, ?_, h7, h8, ?_, ?_, ?_, ?_, ?_, ?_, ?_, ?_, h16, h17, h18, h18', ?_,
        fun i hm => by have := h20 i hm; simp only [List.length_append, List.length_cons, List.length_nil]; omega⟩
      · intro hl
        have := h2 hl
        simp only [List.map_append, this]
        simp
      · obtain ⟨t', ht'⟩ := h2'
        exact ⟨t' ++ [x], by simp [ht']⟩
      · simp only [List.map_append, h3, List.length_append, List.length_cons, List.length_nil, List.map_cons, List.map_nil]
        have hle : s.pending.length ≤ s.taken.length := by
          have := congrArg List.length (h2 (by rw [hph]; rfl))
          simp at this
          omega
        have e1 : s.taken.length + (0 + 1) - (s.pending.length + (0 + 1)) = s.taken.length - s.pending.length := by omega
        rw [e1]
        show _ = List.range' _ (s.pending.length + 1)
        rw [List.range'_concat]
        congr 2
        omega
      · intro hc i hlt'
        simp only [List.length_append, List.length_cons, List.length_nil] at hlt'
        exact h4 hc i (by omega)
      · simp only [hph]; simp
      · simp only [List.length_append, List.length_cons, List.length_nil]; omega
      · simp only [List.length_append, List.length_cons, List.length_nil]; omega
      · intro ht b hb
        simp only [List.mem_append, List.mem_singleton] at hb
        rcases hb with hb | rfl
        · exact hno b hb
        · exact ht
      · intro a b c he hb
        rcases List.eq_nil_or_concat c with rfl | ⟨c', y, rfl⟩
        · rfl
        · exfalso
          rw [List.concat_eq_append] at he
          have he' : s.taken ++ [(x, t)] = (a ++ b :: c') ++ [y] := he.trans (by simp)
          have := (List.append_inj' he' rfl).1
          have hb' := hno b (by rw [this]; simp)
          rw [hb'] at hb; simp at hb
      · intro ht
        exact Or.inr ⟨s.taken, (x, t), rfl, ht⟩
      · intro _
        simp only [List.length_append, List.length_cons, List.length_nil, h12 hex]
      · simp only [List.length_append, List.length_cons, List.length_nil, h12 hex]; omega
      · intro _
        simp only [List.length_append, List.length_cons, List.length_nil, h12 hex]
      · simp only [hph]; simp
      · simp only [hph]; simp
      · simp only [hph]; simp
  | @filled cur hph hc =>
    cases cur with
    | none =>
      simp only [yielded]
      rw [hph] at h2
      refine ⟨h1, fun _ => by simpa [Phase.cur] using h2 rfl, h2', h3, fun _ => h4 (by rw [hph]; simp), by simp, h5, h6, h7, by simp, h9, h10, h11, h12, h13, h13', ?_, by simp,
        h16, by simp [Phase.cur], h18, by simp [Phase.cur], by simp, h20⟩
      intro _ hex
      simp only at hex ⊢
      by_contra hne
      exact hc ⟨by omega, hex⟩
    | some ix =>
      obtain ⟨i, x⟩ := ix
      simp only [yielded]
      rw [hph] at h2 h17 h18'
      have hx := h18' (i, x) (by simp [Phase.cur])
      simp only at hx
      refine ⟨h1, fun _ => by simpa [Phase.cur] using h2 rfl, ?_, h3, fun _ => h4 (by rw [hph]; simp), by simp, h5, h6, h7, by simp, h9, h10, h11, h12, h13, h13', ?_, by simp,
        ordered_use h16 i (h17 (i, x) (by simp [Phase.cur])), by simp [Phase.cur], ?_, by simp [Phase.cur], by simp, h20⟩
      · exact ⟨s.pending.map (·.2), by simpa [Phase.cur] using h2 rfl⟩
      · intro _ hex
        simp only at hex ⊢
        by_contra hne
        exact hc ⟨by omega, hex⟩
      · intro j
        have := h18 j
        simp only [List.mem_append, this, List.mem_singleton, Op.use.injEq, List.length_append, List.length_cons, List.length_nil]
        omega
  | finish hph hp =>
    rw [hph] at h2 h14
    have hf := h2 rfl
    simp only [Phase.cur, List.map_nil, List.append_nil, hp] at hf
    refine ⟨h1, by simp [Phase.live], h2', h3, fun _ => h4 (by rw [hph]; simp), by simp, h5, h6, h7, by simp, h9, h10, h11, h12, h13, h13', by simp, by simp,
      h16, by simp [Phase.cur], h18, by simp [Phase.cur], ?_, h20⟩
    intro _ _
    refine ⟨?_, hf⟩
    show s.exhausted = true
    cases he : s.exhausted with
    | true => rfl
    | false =>
      have := h14 trivial he
      rw [hp] at this
      simp at this
      omega
  | @release i r hph hp hret hcop =>
    have hu : unretire s .head = { s with retired := r } := by unfold unretire; rw [hret, ← hph]; rfl
    rw [hu]
    refine ⟨h1, h2, h2', h3, ?_, h4', h5, h6, ?_, ?_, h9, h10, h11, h12, h13, h13', h14, h15, h16, h17, h18, h18', h19,
      fun j hj => h20 j (by rw [hret]; exact List.mem_cons_of_mem _ hj)⟩
    · intro hc j hj
      rcases h4 hc j hj with hm | hm
      · rw [hret] at hm
        rcases List.mem_cons.mp hm with rfl | hm
        · exact Or.inr hcop
        · exact Or.inl hm
      · exact Or.inr hm
    · rw [hret] at h7; simp only [List.length_cons] at h7; show r.length ≤ _; omega
    · simp only [hph]; simp
  | queried hph hp hq =>
    rw [hph] at h2 h14
    refine ⟨h1, fun _ => by simpa [Phase.cur] using h2 rfl, h2', h3, fun _ => h4 (by rw [hph]; simp), by simp, h5, h6, h7, by simp, h9, h10, h11, h12, h13, h13', fun _ => h14 trivial, fun _ => hp,
      h16, by simp [Phase.cur], h18, by simp [Phase.cur], by simp, h20⟩
  | @sync i r hph hl hret hcop =>
    rw [hph] at h2 h14 h15
    have hu : unretire s .pop = { s with retired := r, phase := .pop } := by unfold unretire; rw [hret]; rfl
    rw [hu]
    refine ⟨h1, fun _ => by simpa [Phase.cur] using h2 rfl, h2', h3, ?_, by simp, h5, h6, ?_, ?_, h9, h10, h11, h12, h13, h13', fun _ => h14 trivial, fun _ => h15 trivial,
      h16, by simp [Phase.cur], h18, by simp [Phase.cur], by simp,
      fun j hj => h20 j (by rw [hret]; exact List.mem_cons_of_mem _ hj)⟩
    · intro _ j hj
      rcases h4 (by rw [hph]; simp) j hj with hm | hm
      · rw [hret] at hm
        rcases List.mem_cons.mp hm with rfl | hm
        · exact Or.inr hcop
        · exact Or.inl hm
      · exact Or.inr hm
    · rw [hret] at h7; simp only [List.length_cons] at h7; show r.length ≤ _; omega
    · intro _; rw [hret] at h7; simp only [List.length_cons] at h7; show r.length ≤ _; omega
  | nosync hph hl =>
    rw [hph] at h2 h14 h15
    refine ⟨h1, fun _ => by simpa [Phase.cur] using h2 rfl, h2', h3, fun _ => h4 (by rw [hph]; simp), by simp, h5, h6, h7, fun _ => by show s.retired.length ≤ P; omega, h9, h10, h11, h12, h13, h13', fun _ => h14 trivial, fun _ => h15 trivial,
      h16, by simp [Phase.cur], h18, by simp [Phase.cur], by simp, h20⟩
  | @pop i x r hph hp =>
    rw [hph] at h2 h14 h15 h8
    have hf := h2 rfl
    rw [hp] at hf h3 h4 h6
    simp only [Phase.cur, List.map_nil, List.append_nil, List.map_cons] at hf
    have hlen := congrArg List.length hf
    simp only [List.length_map, List.length_append, List.length_cons] at hlen
    simp only [List.map_cons, List.length_cons, List.range'_succ, List.cons.injEq] at h3
    obtain ⟨hi0, h3⟩ := h3
    simp only [List.length_cons] at h4 h6
    refine ⟨h1, fun _ => by simpa [Phase.cur] using hf, h2', ?_, ?_, by simp, h5, by show r.length ≤ P; omega, ?_, by simp, h9, h10, h11, h12, h13, h13', by simp, by simp,
      ordered_wait h16 i, ?_, ?_, ?_, by simp, ?_⟩
    · show r.map (·.1) = _
      rw [h3]
      congr 1
      show _ = s.taken.length - r.length
      omega
    · intro _ j hj
      have hj' : j + r.length < s.taken.length := hj
      by_cases hji : j = i
      · left; show j ∈ s.retired ++ [i]; rw [hji]; simp
      · rcases h4 (by rw [hph]; simp) j (by omega) with hm | hm
        · left; show j ∈ s.retired ++ [i]; exact List.mem_append_left _ hm
        · exact Or.inr hm
    · have := h8 trivial
      show (s.retired ++ [i]).length ≤ _
      rw [List.length_append, List.length_singleton]; omega
    · intro y hy
      simp only [Phase.cur, List.mem_singleton] at hy
      subst hy
      show _ ∈ s.compute ++ [Op.wait i]
      simp
    · intro j
      have := h18 j
      show _ ∈ s.compute ++ [Op.wait i] ↔ _
      simp [this]
    · intro y hy
      simp only [Phase.cur, List.mem_singleton] at hy
      subst hy
      show i = s.out.length
      omega
    · intro j hj
      rcases List.mem_append.mp hj with hj | hj
      · exact h20 j hj
      · simp only [List.mem_singleton] at hj
        show j < s.taken.length
        omega
  | close hph hout =>
    refine ⟨h1, by simp [Phase.live], h2', h3, fun _ => h4 (by rw [hph]; simp), by simp, h5, h6, h7, by simp, h9, h10, h11, h12, h13, h13', by simp, by simp,
      h16, by simp [Phase.cur], h18, by simp [Phase.cur], by simp, h20⟩
  | finally_ hph hc =>
    rw [hph] at h19
    refine ⟨h1, by simp [Phase.live], h2', by simp, by simp, fun _ => hc, h5, by simp, by simp, by simp, h9, h10, h11, h12, h13, h13', by simp, by simp,
      h16, by simp [Phase.cur], h18, by simp [Phase.cur], fun he _ => h19 he trivial, by simp⟩
  | copy hlt =>
    refine ⟨h1, h2, h2', h3, ?_, ?_, hlt, h6, h7, h8, h9, h10, h11, h12, h13, h13', h14, h15, h16, h17, h18, h18', h19, h20⟩
    · intro hc j hj
      rcases h4 hc j hj with hm | hm
      · exact Or.inl hm
      · right; show j < s.copied + 1; omega
    · intro hc
      have := h4' hc
      omega

theorem cinv_exec {P : Nat} (hP : 0 < P) {src : List (α × Bool)} {n : Nat} {s : St α} (h : Exec P src n s) : CInv P src s := by
  induction h with
  | refl => exact cinv_start src
  | step _ hs ih => exact cinv_step hP ih hs

def wPhase : Phase α → Nat
  | .fill _ => 8
  | .head => 4
  | .sync => 3
  | .pop => 2
  | .closing => 1
  | .closed => 0

/-- Decreases with every step. -/
def weight (s : St α) : Nat :=
  20 * s.rest.length + 10 * s.pending.length + (if s.exhausted then 0 else 1) + s.retired.length + wPhase s.phase +
    (s.taken.length + s.rest.length - s.copied)

theorem weight_step {P : Nat} {src : List (α × Bool)} {s s' : St α} (hi : CInv P src s) (h : Step P s s') : weight s' < weight s := by
  have hcop := hi.copied
  cases h with
  | @fill cur hph hlt hex =>
    unfold enqueue weight
    cases hr : s.rest with
    | nil => simp [hex, hph]
    | cons xt r =>
      obtain ⟨x, t⟩ := xt
      simp only [hex, List.length_append, List.length_cons, List.length_nil]
      split <;> simp <;> omega
  | @filled cur hph hc =>
    cases cur with
    | none => cases he : s.exhausted <;> simp [yielded, weight, hph, wPhase, he]
    | some ix => obtain ⟨i, x⟩ := ix; cases he : s.exhausted <;> simp [yielded, weight, hph, wPhase, he]
  | finish hph hp => simp only [weight, hph, wPhase]; omega
  | @release i r hph hp hret hcop => simp only [unretire, weight, hph, wPhase, hret, List.tail_cons, List.length_cons]; omega
  | queried hph hp hq => simp only [weight, hph, wPhase]; omega
  | @sync i r hph hl hret hcop => simp only [unretire, weight, hph, wPhase, hret, List.tail_cons, List.length_cons]; omega
  | nosync hph hl => simp only [weight, hph, wPhase]; omega
  | @pop i x r hph hp => simp only [weight, hph, wPhase, hp, List.length_cons, List.length_append, List.length_nil]; omega
  | close hph hout => simp only [weight, hph, wPhase]; omega
  | finally_ hph hc => simp only [weight, hph, wPhase, List.length_nil]; omega
  | copy hlt => simp only [weight]; omega

theorem exec_weight {P : Nat} (hP : 0 < P) {src : List (α × Bool)} {n : Nat} {s : St α} (h : Exec P src n s) :
    n + weight s ≤ weight (start src) := by
  induction h with
  | refl => omega
  | step he hs ih =>
    have := weight_step (cinv_exec hP he) hs
    omega

theorem cuda_progress {P : Nat} {src : List (α × Bool)} {s : St α} (hi : CInv P src s) (hstuck : ∀ s', ¬ Step P s s') :
    s.phase = .closed := by
  have hcop : s.copied = s.taken.length := by
    have := hi.copied
    by_contra hne
    exact hstuck _ (.copy (by omega))
  cases hph : s.phase with
  | closed => rfl
  | fill cur =>
    exfalso
    by_cases hc : s.pending.length < P ∧ s.exhausted = false
    · exact hstuck _ (.fill hph hc.1 hc.2)
    · exact hstuck _ (.filled hph hc)
  | closing => exact absurd (.finally_ hph hcop) (hstuck _)
  | head =>
    exfalso
    by_cases hp : s.pending = []
    · exact hstuck _ (.finish hph hp)
    · by_cases hq : ∀ i r, s.retired = i :: r → ¬ i < s.copied
      · exact hstuck _ (.queried hph hp hq)
      · simp only [not_forall, not_not] at hq
        obtain ⟨i, r, h1, h2⟩ := hq
        exact hstuck _ (.release hph hp h1 h2)
  | sync =>
    exfalso
    by_cases hl : P + 1 ≤ s.retired.length
    · cases hr : s.retired with
      | nil => rw [hr] at hl; simp at hl
      | cons i r =>
        have hlt : i < s.copied := by
          have := hi.retlt i (by rw [hr]; exact List.mem_cons_self ..)
          omega
        exact hstuck _ (.sync hph hl hr hlt)
    · exact hstuck _ (.nosync hph hl)
  | pop =>
    exfalso
    cases hp : s.pending with
    | nil =>
      have h15 := hi.popped
      rw [hph] at h15
      exact h15 trivial hp
    | cons ix r =>
      obtain ⟨i, x⟩ := ix
      exact hstuck _ (.pop hph hp)

end Verif.Prefetch.Cuda
