/-
Lemmas about the sums of training metrics.
-/
import Verif.Log.Model
import Mathlib.Tactic.Ring
import Mathlib.Tactic.FieldSimp
import Mathlib.Tactic.Linarith
import Mathlib.Tactic.SplitIfs
import Mathlib.Algebra.BigOperators.Group.List.Basic
import Mathlib.Algebra.Order.Ring.Rat
import Mathlib.Data.List.GetD

namespace Verif.Log

/-- The value of a metric in a dictionary. -/
def value (d : Dict) (k : String) : ℚ := (d.lookup k).getD 0

def mk (K : List String) (f : String → ℚ) : Dict := K.map fun k => (k, f k)

theorem mk_keys (K : List String) (f : String → ℚ) : (mk K f).map Prod.fst = K := by
  unfold mk; rw [List.map_map]; exact List.map_id K

theorem mk_congr {K : List String} {f g : String → ℚ} (h : ∀ k ∈ K, f k = g k) : mk K f = mk K g :=
  List.map_congr_left fun k hk => by rw [h k hk]

theorem addDict_aux (P S : List String) (h f g : String → ℚ) (hn : (P ++ S).Nodup) :
    (mk S g).foldl addEntry (mk P h ++ mk S f) = mk P h ++ mk S fun k => f k + g k := by
  induction S generalizing P h with
  | nil => simp [mk]
  | cons k S ih =>
    have hk : k ∉ P := fun hk => (List.nodup_append.mp hn).2.2 k hk k (by simp) rfl
    have hkS : k ∉ S := (List.nodup_cons.mp (List.nodup_append.mp hn).2.1).1
    have e1 : addEntry (mk P h ++ mk (k :: S) f) (k, g k) = mk (P ++ [k]) (fun j => if j = k then f k + g k else h j) ++ mk S f := by
      unfold addEntry
      rw [if_pos (by simp [mk])]
      unfold mk
      simp only [List.map_append, List.map_map, List.map_cons, List.map_nil, List.append_assoc, List.cons_append, List.nil_append]
      congr 1
      · apply List.map_congr_left
        intro j hj
        have : j ≠ k := fun e => hk (e ▸ hj)
        simp [this]
      · simp only [if_true, List.cons.injEq, true_and]
        apply List.map_congr_left
        intro j hj
        have : j ≠ k := fun e => hkS (e ▸ hj)
        simp [this]
    have e2 : (mk (k :: S) g).foldl addEntry (mk P h ++ mk (k :: S) f) = (mk S g).foldl addEntry (addEntry (mk P h ++ mk (k :: S) f) (k, g k)) := rfl
    rw [e2, e1, ih (P ++ [k]) _ (by simpa using hn)]
    unfold mk
    simp only [List.map_append, List.map_cons, List.map_nil, List.append_assoc, List.cons_append, List.nil_append]
    congr 1
    · apply List.map_congr_left
      intro j hj
      have : j ≠ k := fun e => hk (e ▸ hj)
      simp [this]

theorem addDict_mk (K : List String) (f g : String → ℚ) (hn : K.Nodup) : addDict (mk K f) (mk K g) = mk K fun k => f k + g k := by
  have := addDict_aux [] K (fun _ => 0) f g (by simpa using hn)
  simpa [mk, addDict] using this

theorem addDict_nil_aux (P S : List String) (g : String → ℚ) (hn : (P ++ S).Nodup) : (mk S g).foldl addEntry (mk P g) = mk (P ++ S) g := by
  induction S generalizing P with
  | nil => simp [mk]
  | cons k S ih =>
    have hk : k ∉ P := fun hk => (List.nodup_append.mp hn).2.2 k hk k (by simp) rfl
    have e1 : addEntry (mk P g) (k, g k) = mk (P ++ [k]) g := by
      unfold addEntry
      rw [if_neg (by rw [mk_keys]; exact hk)]
      simp [mk]
    have e2 : (mk (k :: S) g).foldl addEntry (mk P g) = (mk S g).foldl addEntry (addEntry (mk P g) (k, g k)) := rfl
    rw [e2, e1, ih _ (by simpa using hn)]
    simp

theorem addDict_nil (K : List String) (g : String → ℚ) (hn : K.Nodup) : addDict [] (mk K g) = mk K g := by
  have := addDict_nil_aux [] K g (by simpa using hn)
  simpa [mk, addDict] using this

/-- Sums of dictionaries with the same keys. -/
theorem foldAdd (K : List String) (hn : K.Nodup) (fs : List (String → ℚ)) (hne : fs ≠ []) :
    (fs.map (mk K)).foldl addDict [] = mk K fun k => (fs.map fun f => f k).sum := by
  obtain ⟨f, fs, rfl⟩ := List.exists_cons_of_ne_nil hne
  rw [List.map_cons, List.foldl_cons, addDict_nil K f hn]
  have : ∀ (fs : List (String → ℚ)) (f : String → ℚ), (fs.map (mk K)).foldl addDict (mk K f) = mk K fun k => f k + (fs.map fun f => f k).sum := by
    intro fs
    induction fs with
    | nil => intro f; exact mk_congr fun k _ => by simp
    | cons g gs ih =>
      intro f
      rw [List.map_cons, List.foldl_cons, addDict_mk K f g hn, ih]
      exact mk_congr fun k _ => by simp [add_assoc]
  rw [this]
  exact mk_congr fun k _ => by simp

theorem lookup_of_mem {d : Dict} (hn : (d.map Prod.fst).Nodup) {k : String} {v : ℚ} (h : (k, v) ∈ d) : d.lookup k = some v := by
  induction d with
  | nil => simp at h
  | cons p d ih =>
    obtain ⟨k', v'⟩ := p
    rw [List.map_cons, List.nodup_cons] at hn
    rcases List.mem_cons.mp h with h | h
    · injection h with h1 h2
      subst h1 h2
      simp [List.lookup]
    · have : k ≠ k' := fun e => hn.1 (e ▸ List.mem_map.mpr ⟨(k, v), h, rfl⟩)
      rw [List.lookup, show (k == k') = false by simpa using this]
      exact ih hn.2 h

theorem normalize_eq (d : Dict) (hn : (d.map Prod.fst).Nodup) : normalize d = mk (schemaOf d) (value d) := by
  have h1 : (normalize d).map Prod.fst = schemaOf d := by
    unfold normalize schemaOf
    exact List.map_insertionSort (r := fun a b : String × ℚ => a.1 ≤ b.1) (s := fun a b : String => a ≤ b) Prod.fst d (fun _ _ _ _ => Iff.rfl)
  have h2 : ∀ p ∈ normalize d, p = (p.1, value d p.1) := by
    rintro ⟨k, v⟩ hp
    have hp : (k, v) ∈ d := (List.mem_insertionSort _).mp hp
    simp [value, lookup_of_mem hn hp]
  unfold mk
  rw [← h1, List.map_map]
  conv_lhs => rw [← List.map_id (normalize d)]
  exact List.map_congr_left fun p hp => h2 p hp

theorem schema_nodup {d : Dict} (hn : (d.map Prod.fst).Nodup) : (schemaOf d).Nodup :=
  (List.perm_insertionSort _ _).nodup_iff.mpr hn

theorem schema_mem (d : Dict) (k : String) : k ∈ schemaOf d ↔ k ∈ d.map Prod.fst := List.mem_insertionSort _

theorem schema_sorted (d : Dict) : (schemaOf d).Pairwise (· ≤ ·) := List.pairwise_insertionSort _ _

theorem schema_eq_iff {d d' : Dict} (hn : (d.map Prod.fst).Nodup) (hn' : (d'.map Prod.fst).Nodup) :
    schemaOf d = schemaOf d' ↔ ∀ k, k ∈ d.map Prod.fst ↔ k ∈ d'.map Prod.fst := by
  constructor
  · intro h k
    rw [← schema_mem, ← schema_mem, h]
  · intro h
    have hp : (schemaOf d).Perm (schemaOf d') := by
      rw [List.perm_ext_iff_of_nodup (schema_nodup hn) (schema_nodup hn')]
      intro k
      rw [schema_mem, schema_mem]
      exact h k
    exact hp.eq_of_pairwise (fun a b _ _ h1 h2 => le_antisymm h1 h2) (schema_sorted d) (schema_sorted d')

theorem scale_mk (c : ℚ) (K : List String) (f : String → ℚ) : scaleDict c (mk K f) = mk K fun k => f k / c := by
  simp [scaleDict, mk]

/-! ### Lists per process -/

theorem eq_range_map {α : Type} (l : List α) (n : Nat) (d : α) (h : l.length = n) : l = (List.range n).map fun r => l.getD r d := by
  subst h
  apply List.ext_getElem
  · simp
  · intro i h1 h2
    simp [List.getElem?_eq_getElem h1]

theorem zip_range {α β γ : Type} (f : α → β → γ) (n : Nat) (a : Nat → α) (b : Nat → β) :
    List.zipWith f ((List.range n).map a) ((List.range n).map b) = (List.range n).map fun r => f (a r) (b r) := by
  rw [List.zipWith_map]
  exact List.zipWith_self

theorem replicate_range {α : Type} (n : Nat) (a : α) : List.replicate n a = (List.range n).map fun _ => a := by
  simp

theorem sum_comm_list {α β : Type} (l : List α) (l' : List β) (f : α → β → ℚ) :
    (l.map fun a => (l'.map fun b => f a b).sum).sum = (l'.map fun b => (l.map fun a => f a b).sum).sum := by
  induction l with
  | nil => simp
  | cons a l ih => simp [ih, List.sum_map_add]

theorem sum_div_list {α : Type} (l : List α) (f : α → ℚ) (c : ℚ) : (l.map fun a => f a / c).sum = (l.map f).sum / c := by
  induction l with
  | nil => simp
  | cons a l ih => simp [ih, add_div]

/-! ### Rows of a gathered list -/

theorem row_flat {α : Type} (l : List α) (f : α → List ℚ) (len : Nat) (h : ∀ a ∈ l, (f a).length = len) (i : Nat) (hi : i < l.length) :
    row (l.flatMap f) len i = f l[i] := by
  unfold row
  induction l generalizing i with
  | nil => simp at hi
  | cons a l ih =>
    have ha : (f a).length = len := h a (by simp)
    rw [List.flatMap_cons]
    cases i with
    | zero => simp [← ha]
    | succ i =>
      have : (i + 1) * len = (f a).length + i * len := by rw [ha]; ring
      rw [this, List.drop_append, List.drop_eq_nil_of_le (by omega)]
      simpa using ih (fun b hb => h b (by simp [hb])) i (by simpa using hi)

theorem gather_eq (cfg : Cfg) (hp : 0 < cfg.procs) (c : Nat) (K K' : List String) (F G : Nat → String → ℚ) :
    gather cfg c ((List.range cfg.procs).map fun r => (mk K (F r), mk K' (G r))) (mk K (F 0), mk K' (G 0)) =
      (mk K fun k => ((List.range cfg.procs).map fun r => F r k / c).sum / cfg.procs,
       mk K' fun k => ((List.range cfg.procs).map fun r => G r k / c).sum / cfg.procs) := by
  have hlv : ∀ r, localValues c (mk K (F r), mk K' (G r)) = (K.map fun k => F r k / c) ++ (K'.map fun k => G r k / c) := by
    intro r; unfold localValues mk; simp only [List.map_map]; rfl
  unfold gather
  simp only [hlv]
  by_cases he : (K.map fun k => F 0 k / c) ++ (K'.map fun k => G 0 k / c) = []
  · rw [if_pos he]
    simp only [List.append_eq_nil_iff, List.map_eq_nil_iff] at he
    obtain ⟨rfl, rfl⟩ := he
    rfl
  rw [if_neg he]
  have hlen : ((K.map fun k => F 0 k / c) ++ (K'.map fun k => G 0 k / c)).length = K.length + K'.length := by simp
  rw [hlen]
  have hrow : ∀ i, i < cfg.procs → row (((List.range cfg.procs).map fun r => (mk K (F r), mk K' (G r))).flatMap (localValues c)) (K.length + K'.length) i =
      (K.map fun k => F i k / c) ++ (K'.map fun k => G i k / c) := by
    intro i hi
    rw [row_flat _ _ _ (by
      intro a ha
      obtain ⟨r, -, rfl⟩ := List.mem_map.mp ha
      rw [hlv]; simp) i (by simpa using hi)]
    simp [hlv]
  have hmean : meanRows cfg.procs (K.length + K'.length) (((List.range cfg.procs).map fun r => (mk K (F r), mk K' (G r))).flatMap (localValues c)) =
      (K.map fun k => ((List.range cfg.procs).map fun r => F r k / c).sum / cfg.procs) ++
      (K'.map fun k => ((List.range cfg.procs).map fun r => G r k / c).sum / cfg.procs) := by
    unfold meanRows
    have : ∀ j, ((List.range cfg.procs).map fun i => (row (((List.range cfg.procs).map fun r => (mk K (F r), mk K' (G r))).flatMap (localValues c)) (K.length + K'.length) i).getD j 0) =
        (List.range cfg.procs).map fun i => ((K.map fun k => F i k / c) ++ (K'.map fun k => G i k / c)).getD j 0 := by
      intro j
      exact List.map_congr_left fun i hi => by rw [hrow i (List.mem_range.mp hi)]
    simp only [this]
    apply List.ext_getElem
    · simp
    · intro j h1 h2
      simp only [List.length_map, List.length_range] at h1
      rw [List.getElem_map, List.getElem_range]
      by_cases hj : j < K.length
      · rw [List.getElem_append_left (by simpa using hj), List.getElem_map]
        congr 2
        apply List.map_congr_left
        intro i _
        rw [List.getD_eq_getElem?_getD, List.getElem?_append_left (by simpa using hj)]
        simp [hj]
      · have hj' : K.length ≤ j := by omega
        rw [List.getElem_append_right (by simpa using hj'), List.getElem_map]
        congr 2
        apply List.map_congr_left
        intro i _
        rw [List.getD_eq_getElem?_getD, List.getElem?_append_right (by simpa using hj')]
        have : j - K.length < K'.length := by omega
        simp [this]
  rw [hmean]
  have ht : ∀ (A B : List ℚ), A.length = K.length → ((A ++ B).take (mk K (F 0)).length = A ∧ (A ++ B).drop (mk K (F 0)).length = B) := by
    intro A B hA
    have : (mk K (F 0)).length = A.length := by simp [mk, hA]
    rw [this]; simp
  obtain ⟨t1, t2⟩ := ht (K.map fun k => ((List.range cfg.procs).map fun r => F r k / c).sum / cfg.procs)
    (K'.map fun k => ((List.range cfg.procs).map fun r => G r k / c).sum / cfg.procs) (by simp)
  simp only [t1, t2, mk_keys]
  have hz : ∀ (L : List String) (f : String → ℚ), L.zip (L.map f) = mk L f := by
    intro L f
    unfold mk
    induction L with
    | nil => rfl
    | cons a L ih => simp [ih]
  rw [hz, hz]

end Verif.Log
