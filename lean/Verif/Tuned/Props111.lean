import Verif.Tuned.Model
import Mathlib.Tactic.SplitIfs

/-!
# C111: changing the prefetch limits while training never changes, loses or repeats a batch
-/
namespace Verif.Tuned

variable {α β : Type}

/-! ### Specification -/

/-- The published batches of chunks decoded one by one. -/
def published (decode : List α → Except String (List β)) (chunks : List (List α)) : List (α × β) :=
  chunks.flatMap fun c => match decode c with
    | .error _ => []
    | .ok r => c.zip r

/-- The chunk decoded into as many batches as it has. -/
def Decoded (decode : List α → Except String (List β)) (c : List α) : Prop := ∃ r, decode c = .ok r ∧ r.length = c.length

/-! ### Auxiliary -/

/-- What holds between the chunks: `done` are published. -/
structure Inv (lim : Nat → Settings) (decode : List α → Except String (List β)) (plan : List α) (chunks : List (List α)) (s : St α β) : Prop where
  split : plan = chunks.flatten ++ (s.pending.flatten ++ s.plan)
  ok : ∀ c ∈ chunks, Decoded decode c
  out : s.out = published decode chunks
  count : s.count = s.pending.flatten.length
  yielded : s.yielded = chunks.flatten.length
  completed : s.completed = chunks.flatten.length
  submitted : s.submitted = chunks.flatten.length + s.pending.flatten.length
  nonempty : ∀ c ∈ s.pending, c ≠ []
  ended : s.exhausted = true → s.plan = []
  depths : ∀ d ∈ s.depths, 1 ≤ d.2.2 ∧ d.2.1 ≤ (lim d.1).batches ∧ d.2.2 ≤ max 1 ((lim d.1).batches / max 2 (lim d.1).workers)
  deepest : s.maxQueued = (s.depths.map fun d => d.2.1).foldl max 0
  all : s.submitted = (s.depths.map fun d => d.2.2).sum

theorem inv_submit (lim : Nat → Settings) (decode : List α → Except String (List β)) (plan : List α) (chunks : List (List α)) (s : St α β)
    (h : Inv lim decode plan chunks s) : Inv lim decode plan chunks (submit lim s) ∧ (submit lim s).yielded = s.yielded ∧
      (submit lim s).count + (submit lim s).plan.length = s.count + s.plan.length ∧
      (s.count < (lim s.yielded).batches → s.exhausted = false →
        (submit lim s).exhausted = true ∨ (submit lim s).plan.length < s.plan.length) := by
  unfold submit
  simp only []
  by_cases h1 : s.exhausted = true ∨ (lim s.yielded).batches ≤ s.count
  · rw [if_pos h1]
    refine ⟨h, rfl, rfl, fun h2 h3 => ?_⟩
    rcases h1 with h1 | h1
    · rw [h1] at h3; simp at h3
    · omega
  · rw [if_neg h1]
    rw [not_or] at h1
    have hlt : s.count < (lim s.yielded).batches := by omega
    obtain ⟨k, hk⟩ : ∃ k, k = min (chunkSize (lim s.yielded)) ((lim s.yielded).batches - s.count) := ⟨_, rfl⟩
    rw [← hk]
    have hc1 : 1 ≤ chunkSize (lim s.yielded) := by unfold chunkSize; omega
    have hk1 : 1 ≤ k := by omega
    unfold takeItems
    simp only []
    by_cases h2 : (s.plan.take k).isEmpty = true
    · rw [if_pos h2]
      have hp : s.plan = [] := by
        rw [List.isEmpty_iff, List.take_eq_nil_iff] at h2
        rcases h2 with h2 | h2
        · omega
        · exact h2
      refine ⟨⟨h.split, h.ok, h.out, h.count, h.yielded, h.completed, h.submitted, h.nonempty, fun _ => hp, h.depths, h.deepest, h.all⟩, rfl, rfl, ?_⟩
      intro _ _
      left
      simp only [decide_eq_true_eq, hp, List.length_nil]
      omega
    · rw [if_neg h2]
      have hne : s.plan.take k ≠ [] := by rw [List.isEmpty_iff] at h2; exact h2
      have hlen : (s.plan.take k).length ≤ k := by rw [List.length_take]; omega
      have hpos : 1 ≤ (s.plan.take k).length := List.length_pos_iff.mpr hne
      have hf : (s.pending ++ [s.plan.take k]).flatten = s.pending.flatten ++ s.plan.take k := by simp
      refine ⟨⟨?_, h.ok, h.out, ?_, h.yielded, h.completed, ?_, ?_, ?_, ?_, ?_, ?_⟩, rfl, ?_, ?_⟩
      · show plan = _ ++ ((s.pending ++ [s.plan.take k]).flatten ++ s.plan.drop k)
        rw [hf, List.append_assoc, List.take_append_drop]
        exact h.split
      · show s.count + _ = (s.pending ++ [s.plan.take k]).flatten.length
        rw [hf, List.length_append, h.count]
      · show s.submitted + _ = _ + (s.pending ++ [s.plan.take k]).flatten.length
        rw [hf, List.length_append, h.submitted]
        omega
      · intro c hc
        rcases List.mem_append.mp hc with hc | hc
        · exact h.nonempty c hc
        · rw [List.mem_singleton.mp hc]; exact hne
      · intro he
        have : s.plan.length < k := by simpa using he
        exact List.drop_eq_nil_of_le (by omega)
      · intro d hd
        rcases List.mem_append.mp hd with hd | hd
        · exact h.depths d hd
        · rw [List.mem_singleton.mp hd]
          refine ⟨hpos, ?_, ?_⟩
          · show s.count + (s.plan.take k).length ≤ (lim s.yielded).batches
            omega
          · show (s.plan.take k).length ≤ max 1 ((lim s.yielded).batches / max 2 (lim s.yielded).workers)
            have : k ≤ chunkSize (lim s.yielded) := by omega
            unfold chunkSize at this
            omega
      · show max s.maxQueued _ = _
        rw [List.map_append, List.foldl_append, ← h.deepest]
        rfl
      · show s.submitted + _ = _
        rw [List.map_append, List.sum_append, ← h.all]
        simp
      · show s.count + (s.plan.take k).length + (s.plan.drop k).length = _
        rw [List.length_take, List.length_drop]
        omega
      · intro _ _
        right
        show (s.plan.drop k).length < _
        rw [List.length_take] at hpos
        rw [List.length_drop]
        omega

theorem inv_fill (lim : Nat → Settings) (decode : List α → Except String (List β)) (plan : List α) (chunks : List (List α)) (f : Nat) :
    ∀ s : St α β, Inv lim decode plan chunks s → s.plan.length < f →
      Inv lim decode plan chunks (fill lim f s) ∧ (fill lim f s).count + (fill lim f s).plan.length = s.count + s.plan.length ∧
      ((lim (fill lim f s).yielded).batches ≤ (fill lim f s).count ∨ (fill lim f s).exhausted = true) := by
  induction f with
  | zero => intro s _ h; omega
  | succ f ih =>
    intro s h hf
    unfold fill
    by_cases hg : s.count < (lim s.yielded).batches ∧ s.exhausted = false
    · rw [if_pos hg]
      obtain ⟨i1, i2, i3, i4⟩ := inv_submit lim decode plan chunks s h
      rcases i4 hg.1 hg.2 with hx | hl
      · have : fill lim f (submit lim s) = submit lim s := by
          cases f with
          | zero => rfl
          | succ f => unfold fill; rw [if_neg (by rw [hx]; simp)]
        rw [this]
        exact ⟨i1, i3, .inr hx⟩
      · obtain ⟨j1, j2, j3⟩ := ih (submit lim s) i1 (by omega)
        exact ⟨j1, j2.trans i3, j3⟩
    · rw [if_neg hg]
      refine ⟨h, rfl, ?_⟩
      by_cases hc : s.count < (lim s.yielded).batches
      · right
        cases he : s.exhausted
        · exact absurd ⟨hc, he⟩ hg
        · rfl
      · exact .inl (by omega)

theorem emit_eq (l : List (α × β)) : ∀ s : St α β, emit l s =
    { s with count := s.count - l.length, completed := s.completed + l.length, yielded := s.yielded + l.length, out := s.out ++ l } := by
  induction l with
  | nil => intro s; unfold emit; simp
  | cons p l ih =>
    intro s
    unfold emit
    rw [ih]
    simp only [List.length_cons, List.append_assoc, List.singleton_append]
    congr 1 <;> omega

theorem inv_emit (lim : Nat → Settings) (decode : List α → Except String (List β)) (plan : List α) (chunks : List (List α)) (s : St α β)
    (h : Inv lim decode plan chunks s) (items : List α) (rest : List (List α)) (hp : s.pending = items :: rest) (r : List β)
    (hr : decode items = .ok r) (hl : r.length = items.length) :
    Inv lim decode plan (chunks ++ [items]) (emit (items.zip r) { s with pending := rest }) ∧
    (emit (items.zip r) { s with pending := rest }).plan = s.plan ∧
    (emit (items.zip r) { s with pending := rest }).count < s.count := by
  rw [emit_eq]
  have hz : (items.zip r).length = items.length := by rw [List.length_zip]; omega
  have hne : items ≠ [] := h.nonempty items (by rw [hp]; exact List.mem_cons_self)
  have hpos := List.length_pos_iff.mpr hne
  have hf : (chunks ++ [items]).flatten = chunks.flatten ++ items := by simp
  have hc := h.count
  rw [hp, List.flatten_cons, List.length_append] at hc
  refine ⟨⟨?_, ?_, ?_, ?_, ?_, ?_, ?_, ?_, h.ended, h.depths, h.deepest, h.all⟩, rfl, ?_⟩
  · have := h.split
    rw [hp, List.flatten_cons] at this
    show plan = (chunks ++ [items]).flatten ++ (rest.flatten ++ s.plan)
    rw [this, hf]
    simp only [List.append_assoc]
  · intro c hc
    rcases List.mem_append.mp hc with hc | hc
    · exact h.ok c hc
    · rw [List.mem_singleton.mp hc]; exact ⟨r, hr, hl⟩
  · show s.out ++ items.zip r = _
    unfold published
    rw [List.flatMap_append, h.out]
    unfold published
    rw [List.flatMap_singleton, hr]
  · show s.count - _ = rest.flatten.length
    omega
  · show s.yielded + _ = _
    rw [hf, List.length_append, h.yielded, hz]
  · show s.completed + _ = _
    rw [hf, List.length_append, h.completed, hz]
  · show s.submitted = _ + rest.flatten.length
    rw [hf, List.length_append, h.submitted, hp, List.flatten_cons, List.length_append]
    omega
  · intro c hc
    exact h.nonempty c (by rw [hp]; exact List.mem_cons_of_mem _ hc)
  · show s.count - _ < s.count
    omega

/-- How the run ends. -/
structure Ends (lim : Nat → Settings) (decode : List α → Except String (List β)) (plan : List α) (r : St α β × Option String) : Prop where
  depths : ∀ d ∈ r.1.depths, 1 ≤ d.2.2 ∧ d.2.1 ≤ (lim d.1).batches ∧ d.2.2 ≤ max 1 ((lim d.1).batches / max 2 (lim d.1).workers)
  deepest : r.1.maxQueued = (r.1.depths.map fun d => d.2.1).foldl max 0
  all : r.1.submitted = (r.1.depths.map fun d => d.2.2).sum
  completed : r.1.completed = r.1.out.length
  finished : r.2 = none → ∃ chunks, plan = chunks.flatten ∧ (∀ c ∈ chunks, Decoded decode c) ∧ r.1.out = published decode chunks ∧
    r.1.submitted = plan.length ∧ r.1.count = 0
  failed : ∀ e, r.2 = some e → ∃ chunks bad later, plan = chunks.flatten ++ bad ++ later ∧ (∀ c ∈ chunks, Decoded decode c) ∧
    r.1.out = published decode chunks ∧ (decode bad = .error e ∨ ∃ x, decode bad = .ok x ∧ x.length ≠ bad.length)

theorem published_length (decode : List α → Except String (List β)) (chunks : List (List α)) (h : ∀ c ∈ chunks, Decoded decode c) :
    (published decode chunks).length = chunks.flatten.length := by
  induction chunks with
  | nil => rfl
  | cons c l ih =>
    obtain ⟨r, hr, hl⟩ := h c List.mem_cons_self
    have := ih fun c hc => h c (List.mem_cons_of_mem _ hc)
    unfold published at this ⊢
    rw [List.flatMap_cons, List.length_append, this, List.flatten_cons, List.length_append, hr]
    simp only [List.length_zip]
    omega

theorem drain_ends (lim : Nat → Settings) (hlim : ∀ n, 1 ≤ (lim n).batches) (decode : List α → Except String (List β)) (plan : List α) (f : Nat) :
    ∀ (s : St α β) (chunks : List (List α)), Inv lim decode plan chunks s → ((lim s.yielded).batches ≤ s.count ∨ s.exhausted = true) →
      s.count + s.plan.length < f → Ends lim decode plan (drain lim decode f s) := by
  induction f with
  | zero => intro s _ _ _ h; omega
  | succ f ih =>
    intro s chunks h hx hf
    have hcomp : s.completed = s.out.length := by rw [h.completed, h.out, published_length decode chunks h.ok]
    unfold drain
    cases hp : s.pending with
    | nil =>
      simp only []
      have hc0 : s.count = 0 := by rw [h.count, hp]; rfl
      have hplan : s.plan = [] := by
        rcases hx with hx | hx
        · have := hlim s.yielded; omega
        · exact h.ended hx
      have hsplit : plan = chunks.flatten := by
        have := h.split
        rw [hp, hplan] at this
        simpa using this
      refine ⟨h.depths, h.deepest, h.all, hcomp, fun _ => ⟨chunks, hsplit, h.ok, h.out, ?_, hc0⟩, fun e he => by simp at he⟩
      show s.submitted = _
      rw [h.submitted, hp, hsplit]; rfl
    | cons items rest =>
      simp only []
      have hsplit := h.split
      rw [hp, List.flatten_cons] at hsplit
      cases hr : decode items with
      | error e =>
        simp only []
        refine ⟨h.depths, h.deepest, h.all, hcomp, fun he => by simp at he, fun e' he => ?_⟩
        simp only [Option.some.injEq] at he
        refine ⟨chunks, items, rest.flatten ++ s.plan, ?_, h.ok, h.out, .inl (he ▸ hr)⟩
        rw [hsplit]; simp only [List.append_assoc]
      | ok r =>
        simp only []
        by_cases hl : r.length ≠ items.length
        · rw [if_pos hl]
          refine ⟨h.depths, h.deepest, h.all, hcomp, fun he => by simp at he, fun e' he => ?_⟩
          refine ⟨chunks, items, rest.flatten ++ s.plan, ?_, h.ok, h.out, .inr ⟨r, hr, hl⟩⟩
          rw [hsplit]; simp only [List.append_assoc]
        · rw [if_neg hl]
          obtain ⟨e1, e2, e3⟩ := inv_emit lim decode plan chunks s h items rest hp r hr (not_not.mp hl)
          obtain ⟨g1, g2, g3⟩ := inv_fill lim decode plan _ ((emit (items.zip r) { s with pending := rest }).plan.length + 1) _ e1 (Nat.lt_succ_self _)
          exact ih _ _ g1 g3 (by rw [g2, e2]; omega)

theorem run_ends (lim : Nat → Settings) (hlim : ∀ n, 1 ≤ (lim n).batches) (decode : List α → Except String (List β)) (plan : List α) :
    Ends lim decode plan (run lim decode plan) := by
  have h0 : Inv lim decode plan [] (start plan) :=
    ⟨rfl, by simp, rfl, rfl, rfl, rfl, rfl, by simp [start], fun h => by simp [start] at h, by simp [start], rfl, rfl⟩
  obtain ⟨g1, g2, g3⟩ := inv_fill lim decode plan [] (plan.length + 1) (start plan) h0 (Nat.lt_succ_self _)
  unfold run
  refine drain_ends lim hlim decode plan (plan.length + 1) _ _ g1 g3 ?_
  rw [g2]
  show 0 + plan.length < _
  omega

theorem published_map (f : α → β) (decode : List α → Except String (List β)) (hd : ∀ l, decode l = .ok (l.map f)) (chunks : List (List α)) :
    published decode chunks = chunks.flatten.map fun a => (a, f a) := by
  induction chunks with
  | nil => rfl
  | cons c l ih =>
    unfold published at ih ⊢
    rw [List.flatMap_cons, ih, List.flatten_cons, List.map_append, hd]
    simp only []
    congr 1
    clear ih
    induction c with
    | nil => rfl
    | cons a c ih => rw [List.map_cons, List.zip_cons_cons, ih, List.map_cons]

/-! ### Theorems -/

/-- **C111 (every batch, in order, once).** However the tuner changes the limits from batch to batch (as long as they stay positive), the
planned batches are published in order, each once and with its own decoded data, and the counters say so. -/
theorem C111_stream (lim : Nat → Settings) (hlim : ∀ n, 1 ≤ (lim n).batches) (f : α → β) (decode : List α → Except String (List β))
    (hd : ∀ l, decode l = .ok (l.map f)) (plan : List α) : (run lim decode plan).2 = none ∧
      (run lim decode plan).1.out = plan.map (fun a => (a, f a)) ∧ (run lim decode plan).1.submitted = plan.length ∧
      (run lim decode plan).1.completed = plan.length ∧ (run lim decode plan).1.count = 0 := by
  have h := run_ends lim hlim decode plan
  have hnone : (run lim decode plan).2 = none := by
    cases he : (run lim decode plan).2 with
    | none => rfl
    | some e =>
      obtain ⟨_, bad, _, _, _, _, hb⟩ := h.failed e he
      rcases hb with hb | ⟨x, hb, hx⟩
      · rw [hd] at hb; simp at hb
      · rw [hd] at hb
        simp only [Except.ok.injEq] at hb
        rw [← hb, List.length_map] at hx
        exact absurd rfl hx
  obtain ⟨chunks, h1, _, h3, h4, h5⟩ := h.finished hnone
  rw [published_map f decode hd, ← h1] at h3
  refine ⟨hnone, h3, h4, ?_, h5⟩
  rw [h.completed, h3, List.length_map]

/-- **C111 (failures).** With any decoder: the plan is cut into chunks; those before a failing one are published with what they decode to, the
failure of that chunk is raised and nothing after it is published; without a failure everything is. The run always ends. -/
theorem C111_failures (lim : Nat → Settings) (hlim : ∀ n, 1 ≤ (lim n).batches) (decode : List α → Except String (List β)) (plan : List α) :
    ((run lim decode plan).2 = none → ∃ chunks, plan = chunks.flatten ∧ (∀ c ∈ chunks, Decoded decode c) ∧
      (run lim decode plan).1.out = published decode chunks) ∧
    ∀ e, (run lim decode plan).2 = some e → ∃ chunks bad later, plan = chunks.flatten ++ bad ++ later ∧ (∀ c ∈ chunks, Decoded decode c) ∧
      (run lim decode plan).1.out = published decode chunks ∧ (decode bad = .error e ∨ ∃ x, decode bad = .ok x ∧ x.length ≠ bad.length) := by
  have h := run_ends lim hlim decode plan
  refine ⟨fun hn => ?_, h.failed⟩
  obtain ⟨chunks, h1, h2, h3, _⟩ := h.finished hn
  exact ⟨chunks, h1, h2, h3⟩

/-- **C111 (limits are kept).** At every submission the batches under way are within the limit in force then, the chunk is not empty and within
the chunk size in force; the recorded maximum is the deepest of these and the recorded number of submitted batches their sum. -/
theorem C111_limits (lim : Nat → Settings) (hlim : ∀ n, 1 ≤ (lim n).batches) (decode : List α → Except String (List β)) (plan : List α) :
    (∀ d ∈ (run lim decode plan).1.depths, 1 ≤ d.2.2 ∧ d.2.1 ≤ (lim d.1).batches ∧ d.2.2 ≤ max 1 ((lim d.1).batches / max 2 (lim d.1).workers)) ∧
    (run lim decode plan).1.maxQueued = ((run lim decode plan).1.depths.map fun d => d.2.1).foldl max 0 ∧
    (run lim decode plan).1.submitted = ((run lim decode plan).1.depths.map fun d => d.2.2).sum :=
  ⟨(run_ends lim hlim decode plan).depths, (run_ends lim hlim decode plan).deepest, (run_ends lim hlim decode plan).all⟩

end Verif.Tuned
