/-
Running elementwise actions in any order.
-/
import Verif.Adam.Layout

namespace Verif.Adam

variable {K : Type}

/-- An action on memory: what it may change and what it looks at. -/
structure Local (act : Mem K → Mem K) (W R : Cell → Prop) : Prop where
  frame : ∀ mem c, ¬ W c → act mem c = mem c
  dep : ∀ mem mem', (∀ c, R c → mem c = mem' c) → ∀ c, W c → act mem c = act mem' c

/-- A list of actions none of which touches what another one looks at. -/
theorem foldl_local {κ : Type} (act : κ → Mem K → Mem K) (W R : κ → Cell → Prop)
    (hl : ∀ k, Local (act k) (W k) (R k)) :
    ∀ (l : List κ), l.Pairwise (fun k k' => ∀ c, W k c → ¬ R k' c ∧ ¬ W k' c) →
      l.Pairwise (fun k k' => ∀ c, W k' c → ¬ R k c ∧ ¬ W k c) → ∀ mem,
      (∀ c, (∀ k ∈ l, ¬ W k c) → l.foldl (fun mem k => act k mem) mem c = mem c)
      ∧ (∀ k ∈ l, ∀ c, W k c → l.foldl (fun mem k => act k mem) mem c = act k mem c)
  | [], _, _, mem => ⟨fun _ _ => rfl, fun k hk => absurd hk (by simp)⟩
  | k :: l, h, h', mem => by
    obtain ⟨h1, h2⟩ := List.pairwise_cons.mp h
    obtain ⟨h1', h2'⟩ := List.pairwise_cons.mp h'
    obtain ⟨i1, i2⟩ := foldl_local act W R hl l h2 h2' (act k mem)
    refine ⟨fun c hc => ?_, fun k' hk' c hc => ?_⟩
    · rw [List.foldl_cons, i1 c fun k' hk' => hc k' (List.mem_cons_of_mem _ hk')]
      exact (hl k).frame _ _ (hc k List.mem_cons_self)
    · rw [List.foldl_cons]
      rcases List.mem_cons.mp hk' with rfl | hk'
      · exact i1 c fun k'' hk'' => (h1 k'' hk'' c hc).2
      · rw [i2 k' hk' c hc]
        refine (hl k').dep _ _ (fun d hd => (hl k).frame _ _ ?_) c hc
        exact fun hw => (h1 k' hk' d hw).1 hd

/-- The same with one symmetric condition on different keys. -/
theorem foldl_local' {κ : Type} (act : κ → Mem K → Mem K) (W R : κ → Cell → Prop)
    (hl : ∀ k, Local (act k) (W k) (R k)) (l : List κ) (hn : l.Nodup)
    (hd : ∀ k ∈ l, ∀ k' ∈ l, k ≠ k' → ∀ c, W k c → ¬ R k' c ∧ ¬ W k' c) (mem : Mem K) :
    (∀ c, (∀ k ∈ l, ¬ W k c) → l.foldl (fun mem k => act k mem) mem c = mem c)
      ∧ (∀ k ∈ l, ∀ c, W k c → l.foldl (fun mem k => act k mem) mem c = act k mem c) := by
  refine foldl_local act W R hl l ?_ ?_ mem
  · exact hn.imp_of_mem fun {a b} ha hb hab => hd a ha b hb hab
  · exact hn.imp_of_mem fun {a b} ha hb hab => hd b hb a ha (Ne.symm hab)

end Verif.Adam
