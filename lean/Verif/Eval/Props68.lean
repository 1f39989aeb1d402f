import Verif.Eval.Model
import Mathlib.Data.List.Basic
import Mathlib.Data.List.Forall2
import Mathlib.Tactic.SplitIfs
import Mathlib.Tactic.ByContra
import Mathlib.Logic.Basic

/-!
C68: evaluation runs the same number of forwards on every rank, flags every rank's own batches exactly
once, and flags extra forwards as not real.
-/

namespace Verif.Eval

/-! ### Specification -/

/-- What a rank may look at: the first `max_batches` results of its loader. -/
def visible {β : Type} (maxBatches : Option Nat) (l : List β) : List β :=
  match maxBatches with
  | some m => l.take m
  | none => l

/-- The longest of the ranks' lists. -/
def longest {β : Type} (ls : List (List β)) : Nat := (ls.map List.length).foldr max 0

/-- The first batch of the first rank that has one. -/
def firstBatch {α : Type} (maxBatches : Option Nat) (data : List (List α)) : Option α :=
  (data.filterMap (fun bs => (visible maxBatches bs).head?)).head?

/-- What the generator of a rank whose own batches are `own` must have yielded after `n` forwards. -/
structure Yields {α : Type} (own : List α) (borrowed : Option α) (n : Nat) (out : List (α × Bool)) : Prop where
  count : out.length = n
  real : out.take own.length = own.map (fun a => (a, true))
  fits : own.length ≤ n
  extra : ∀ p ∈ out.drop own.length, p.2 = false ∧
    (own.getLast? = some p.1 ∨ (own = [] ∧ borrowed = some p.1))

/-! ### Invariant -/

/-- State of a rank at the beginning of iteration `k`, having seen its own batches `own`. -/
structure RInv {α : Type} (mb : Option Nat) (k : Nat) (cand : Option α) (own : List α)
    (l : List (Item α)) (r : Rank α) : Prop where
  split : l = own.map Item.batch ++ r.src
  real : r.numReal = own.length
  idx : r.batchIndex = k
  le : own.length ≤ k
  lim : ∀ m, mb = some m → own.length ≤ m
  exh : own.length < k → r.src = [] ∨ mb = some own.length
  last : r.last = (match own.getLast? with | some a => some a | none => if k = 0 then none else cand)
  out : Yields own cand k r.out

/-- the first visible item of a loader, if it is a batch -/
def headBatch {α : Type} (mb : Option Nat) (l : List (Item α)) : Option α :=
  match visible mb l with
  | .batch a :: _ => some a
  | _ => none

theorem atLimit_iff {mb : Option Nat} {n : Nat} (hlim : ∀ m, mb = some m → n ≤ m) :
    atLimit mb n = true ↔ mb = some n := by
  unfold atLimit
  cases mb with
  | none => simp
  | some m =>
    have := hlim m rfl
    simp only [decide_eq_true_eq, Option.some.injEq]
    omega

theorem fetch_cases {α : Type} {mb : Option Nat} {k : Nat} {cand : Option α} {own : List α}
    {l : List (Item α)} {r : Rank α} (h : RInv mb k cand own l r) :
    (fetchMap mb r = ⟨r, none, false⟩ ∧ (r.src = [] ∨ mb = some own.length)) ∨
    (∃ a rest, r.src = .batch a :: rest ∧ own.length = k ∧ (∀ m, mb = some m → own.length < m) ∧
      fetchMap mb r = ⟨{ r with src := rest }, some a, false⟩) ∨
    (∃ rest, r.src = .fails :: rest ∧ own.length = k ∧ (∀ m, mb = some m → own.length < m) ∧
      fetchMap mb r = ⟨{ r with src := rest }, none, true⟩) := by
  by_cases hl : mb = some own.length
  · left
    refine ⟨?_, Or.inr hl⟩
    unfold fetchMap
    rw [h.real, if_pos ((atLimit_iff h.lim).mpr hl)]
  · have hlt : ∀ m, mb = some m → own.length < m := by
      intro m hm
      have := h.lim m hm
      by_contra hc
      exact hl (by rw [hm]; congr 1; omega)
    have hk : r.src ≠ [] → own.length = k := by
      intro hs
      by_contra hc
      have := h.le
      rcases h.exh (by omega) with h1 | h1
      · exact hs h1
      · exact hl h1
    have hf : fetchMap mb r = match r.src with
        | [] => ⟨r, none, false⟩
        | .batch a :: rest => ⟨{ r with src := rest }, some a, false⟩
        | .fails :: rest => ⟨{ r with src := rest }, none, true⟩ := by
      unfold fetchMap
      rw [h.real, if_neg (fun hc => hl ((atLimit_iff h.lim).mp hc))]
      rfl
    cases hs : r.src with
    | nil => left; rw [hf, hs]; exact ⟨rfl, Or.inl rfl⟩
    | cons i rest =>
      cases i with
      | batch a => right; left; rw [hf, hs]; exact ⟨a, rest, rfl, hk (by simp [hs]), hlt, rfl⟩
      | fails => right; right; rw [hf, hs]; exact ⟨rest, rfl, hk (by simp [hs]), hlt, rfl⟩

theorem forall₂_map_right {α β γ : Type} {R : α → γ → Prop} {f : β → γ} {as : List α} {bs : List β}
    (h : List.Forall₂ (fun a b => R a (f b)) as bs) : List.Forall₂ R as (bs.map f) := by
  induction h with
  | nil => exact .nil
  | cons h _ ih => exact .cons h ih

theorem forall₂_imp {α β : Type} {R S : α → β → Prop} (hi : ∀ a b, R a b → S a b) {as : List α}
    {bs : List β} (h : List.Forall₂ R as bs) : List.Forall₂ S as bs := by
  induction h with
  | nil => exact .nil
  | cons h _ ih => exact .cons (hi _ _ h) ih

theorem forall₂_mem_right {α β : Type} {R : α → β → Prop} {as : List α} {bs : List β}
    (h : List.Forall₂ R as bs) {b : β} (hb : b ∈ bs) : ∃ a ∈ as, R a b := by
  induction h with
  | nil => simp at hb
  | cons h _ ih =>
    rcases List.mem_cons.mp hb with rfl | hb
    · exact ⟨_, List.mem_cons_self .., h⟩
    · obtain ⟨a, ha, hr⟩ := ih hb
      exact ⟨a, List.mem_cons_of_mem _ ha, hr⟩

theorem forall₂_mem_left {α β : Type} {R : α → β → Prop} {as : List α} {bs : List β}
    (h : List.Forall₂ R as bs) {a : α} (ha : a ∈ as) : ∃ b ∈ bs, R a b := by
  induction h with
  | nil => simp at ha
  | cons h _ ih =>
    rcases List.mem_cons.mp ha with rfl | ha
    · exact ⟨_, List.mem_cons_self .., h⟩
    · obtain ⟨b, hb, hr⟩ := ih ha
      exact ⟨b, List.mem_cons_of_mem _ hb, hr⟩

theorem forall₂_and {α β : Type} {R S : α → β → Prop} {as : List α} {bs : List β}
    (h : List.Forall₂ R as bs) (h' : ∀ a ∈ as, ∀ b ∈ bs, R a b → S a b) : List.Forall₂ S as bs := by
  induction h with
  | nil => exact .nil
  | cons h _ ih =>
    exact .cons (h' _ (List.mem_cons_self ..) _ (List.mem_cons_self ..) h)
      (ih (fun a ha b hb => h' a (List.mem_cons_of_mem _ ha) b (List.mem_cons_of_mem _ hb)))

theorem allSome_forall₂ {α β γ : Type} {P : α → γ → Prop} {f : β → Option γ} {as : List α} {bs : List β}
    (h : List.Forall₂ (fun a b => ∃ c, f b = some c ∧ P a c) as bs) :
    ∃ cs, allSome (bs.map f) = some cs ∧ List.Forall₂ P as cs := by
  induction h with
  | nil => exact ⟨[], rfl, .nil⟩
  | cons h _ ih =>
    obtain ⟨c, h1, h2⟩ := h
    obtain ⟨cs, h3, h4⟩ := ih
    exact ⟨c :: cs, by simp only [List.map_cons, h1, allSome, h3], .cons h2 h4⟩

theorem agree_const {β : Type} (l : List β) (f : β → Action) (a : Action) (hne : l ≠ [])
    (h : ∀ b ∈ l, f b = a) : agree (l.map f) = some a := by
  obtain ⟨x, l, rfl⟩ := List.exists_cons_of_ne_nil hne
  simp only [List.map_cons, agree, h x (List.mem_cons_self ..)]
  rw [if_pos]
  simp only [List.all_map, List.all_eq_true, Function.comp_def, decide_eq_true_eq]
  intro b hb
  exact h b (List.mem_cons_of_mem _ hb)

/-- the own batches grow by one -/
theorem yields_real {α : Type} {own : List α} {cand : Option α} {k : Nat} {out : List (α × Bool)}
    (h : Yields own cand k out) (hk : own.length = k) (a : α) :
    Yields (own ++ [a]) cand (k + 1) (out ++ [(a, true)]) := by
  have hlen : out.length = own.length := by rw [h.count, hk]
  have hout : out = own.map (fun a => (a, true)) := by
    have := h.real
    rwa [← hlen, List.take_length] at this
  constructor
  · simp [h.count]
  · rw [hout]
    rw [List.take_of_length_le (by simp)]
    simp
  · simp [hk]
  · intro p hp
    rw [List.drop_eq_nil_of_le (by simp [hlen])] at hp
    simp at hp

/-- an extra forward -/
theorem yields_extra {α : Type} {own : List α} {cand : Option α} {k : Nat} {out : List (α × Bool)}
    (h : Yields own cand k out) (a : α) (ha : own.getLast? = some a ∨ (own = [] ∧ cand = some a)) :
    Yields own cand (k + 1) (out ++ [(a, false)]) := by
  have hle : own.length ≤ out.length := by rw [h.count]; exact h.fits
  constructor
  · simp [h.count]
  · rw [List.take_append_of_le_length hle, h.real]
  · have := h.fits; omega
  · intro p hp
    rw [List.drop_append_of_le_length hle, List.mem_append] at hp
    rcases hp with hp | hp
    · exact h.extra p hp
    · simp only [List.mem_singleton] at hp
      subst hp
      exact ⟨rfl, ha⟩

theorem rinv_real {α : Type} {mb : Option Nat} {k : Nat} {cand : Option α} {own : List α}
    {l : List (Item α)} {r : Rank α} (h : RInv mb k cand own l r) (a : α) (rest : List (Item α))
    (hs : r.src = .batch a :: rest) (hk : own.length = k) (hlt : ∀ m, mb = some m → own.length < m)
    (c : Option (List (Option α))) :
    ∃ r', finishMap c ⟨{ r with src := rest }, some a, false⟩ = some r' ∧
      RInv mb (k + 1) cand (own ++ [a]) l r' := by
  refine ⟨_, rfl, ?_⟩
  constructor
  · rw [h.split, hs]; simp
  · simp [h.real]
  · simp [h.idx]
  · simp [hk]
  · intro m hm; have := hlt m hm; simp; omega
  · intro hc; simp [hk] at hc
  · simp
  · exact yields_real h.out hk a

theorem rinv_extra {α : Type} {mb : Option Nat} {k : Nat} {cand : Option α} {own : List α}
    {l : List (Item α)} {r : Rank α} (h : RInv mb k cand own l r)
    (hx : r.src = [] ∨ mb = some own.length) (c : Option (List (Option α))) (a : α) (hc0 : cand = some a)
    (hc : k = 0 → ∃ cs, c = some cs ∧ (cs.filterMap id).head? = cand) :
    ∃ r', finishMap c ⟨r, none, false⟩ = some r' ∧ RInv mb (k + 1) cand own l r' := by
  have hle := h.le
  have hlast := h.last
  unfold finishMap
  dsimp only
  cases hg : own.getLast? with
  | some b =>
    rw [hg] at hlast
    dsimp only at hlast
    rw [hlast]
    refine ⟨_, rfl, ?_⟩
    constructor
    · exact h.split
    · exact h.real
    · simp [h.idx]
    · omega
    · exact h.lim
    · intro _; exact hx
    · simp [hg]
    · exact yields_extra h.out b (Or.inl hg)
  | none =>
    have hown : own = [] := List.getLast?_eq_none_iff.mp hg
    rw [hg] at hlast
    dsimp only at hlast
    by_cases hk : k = 0
    · rw [if_pos hk] at hlast
      rw [hlast]
      obtain ⟨cs, rfl, hcs⟩ := hc hk
      dsimp only
      rw [hc0] at hcs
      cases hf : cs.filterMap id with
      | nil => rw [hf] at hcs; simp at hcs
      | cons b t =>
        rw [hf] at hcs
        simp only [List.head?_cons, Option.some.injEq] at hcs
        subst hcs
        refine ⟨_, rfl, ?_⟩
        constructor
        · exact h.split
        · exact h.real
        · simp [h.idx]
        · omega
        · exact h.lim
        · intro _; exact hx
        · simp [hg, hc0]
        · exact yields_extra h.out b (Or.inr ⟨hown, hc0⟩)
    · rw [if_neg hk, hc0] at hlast
      rw [hlast]
      refine ⟨_, rfl, ?_⟩
      constructor
      · exact h.split
      · exact h.real
      · simp [h.idx]
      · omega
      · exact h.lim
      · intro _; exact hx
      · simp [hg, hc0, hlast]
      · exact yields_extra h.out a (Or.inr ⟨hown, hc0⟩)

theorem visible_split {α : Type} {mb : Option Nat} {own : List α} {l src : List (Item α)}
    (hs : l = own.map Item.batch ++ src) (hlim : ∀ m, mb = some m → own.length ≤ m) :
    visible mb l = own.map Item.batch ++ visible (mb.map (· - own.length)) src := by
  cases mb with
  | none => exact hs
  | some m =>
    have := hlim m rfl
    simp only [visible, Option.map_some, hs]
    rw [List.take_append, List.take_of_length_le (by simpa using this)]
    simp

theorem visible_exh {α : Type} {mb : Option Nat} {own : List α} {l src : List (Item α)}
    (hs : l = own.map Item.batch ++ src) (hlim : ∀ m, mb = some m → own.length ≤ m)
    (hx : src = [] ∨ mb = some own.length) : visible mb l = own.map Item.batch := by
  rw [visible_split hs hlim]
  rcases hx with rfl | rfl
  · cases mb <;> simp [visible]
  · simp [visible]

/-- no visible item before `k` fails -/
def CleanBefore {α : Type} (mb : Option Nat) (k : Nat) (l : List (Item α)) : Prop :=
  ∀ j < k, (visible mb l)[j]? ≠ some .fails

theorem rinv_clean {α : Type} {mb : Option Nat} {k : Nat} {cand : Option α} {own : List α}
    {l : List (Item α)} {r : Rank α} (h : RInv mb k cand own l r) : CleanBefore mb k l := by
  intro j hj
  by_cases hjo : j < own.length
  · rw [visible_split h.split h.lim, List.getElem?_append_left (by simpa using hjo)]
    simp [List.getElem?_eq_getElem hjo]
  · rw [visible_exh h.split h.lim (h.exh (by omega))]
    rw [List.getElem?_eq_none (by simp; omega)]
    simp

/-- Some rank has `k` own batches. -/
def Alive {α : Type} (mb : Option Nat) (k : Nat) (loaders : List (List (Item α))) : Prop :=
  0 < k → ∃ l ∈ loaders, k ≤ (visible mb l).length

/-- The end of a run. -/
def Outcome {α : Type} (mb : Option Nat) (cand : Option α) (loaders : List (List (Item α)))
    (run : Run α) : Prop :=
  (∃ k ranks, run = .done ranks ∧ Alive mb k loaders ∧
    List.Forall₂ (fun l r => ∃ own, RInv mb k cand own l r ∧ (r.src = [] ∨ mb = some own.length))
      loaders ranks) ∨
  (∃ k ranks, run = .raised ranks ∧
    List.Forall₂ (fun l r => CleanBefore mb k l ∧ ∃ own, Yields own cand k r.out ∧
      ∃ rest, l = own.map Item.batch ++ rest) loaders ranks ∧
    ∃ l ∈ loaders, (visible mb l)[k]? = some .fails)

theorem loopMap_outcome {α : Type} (mb : Option Nat) (loaders : List (List (Item α)))
    (hne : loaders ≠ []) (cand : Option α) (hcand : cand = (loaders.filterMap (headBatch mb)).head?) :
    ∀ (fuel k : Nat) (ranks : List (Rank α)),
      List.Forall₂ (fun l r => ∃ own, RInv mb k cand own l r) loaders ranks →
      Alive mb k loaders → (0 < k → ∃ a, cand = some a) →
      (ranks.map (fun r => r.src.length)).sum < fuel →
      Outcome mb cand loaders (loopMap mb fuel ranks) := by
  intro fuel
  induction fuel with
  | zero => intro k ranks _ _ _ h; omega
  | succ fuel ih =>
    intro k ranks hinv halive hck hfuel
    have hrne : ranks ≠ [] := by
      intro h; subst h; cases hinv; exact hne rfl
    unfold loopMap
    dsimp only
    set fs := ranks.map (fetchMap mb) with hfs
    have hfne : fs ≠ [] := by simpa [hfs] using hrne
    by_cases herr : fs.any (·.error) = true
    · rw [if_pos herr]
      right
      refine ⟨k, _, rfl, ?_, ?_⟩
      · rw [hfs, List.map_map]
        apply forall₂_map_right
        refine forall₂_imp ?_ hinv
        rintro l r ⟨own, h⟩
        refine ⟨rinv_clean h, own, ?_, _, h.split⟩
        have : (fetchMap mb r).rank.out = r.out := by
          rcases fetch_cases h with ⟨h1, _⟩ | ⟨a, rest, _, _, _, h1⟩ | ⟨rest, _, _, _, h1⟩ <;> rw [h1]
        simp only [Function.comp_def, this]
        exact h.out
      · rw [List.any_eq_true] at herr
        obtain ⟨f, hf, he⟩ := herr
        rw [hfs, List.mem_map] at hf
        obtain ⟨r, hr, rfl⟩ := hf
        obtain ⟨l, hl, own, h⟩ := forall₂_mem_right hinv hr
        refine ⟨l, hl, ?_⟩
        rcases fetch_cases h with ⟨h1, _⟩ | ⟨a, rest, _, _, _, h1⟩ | ⟨rest, hs, hk, hlt, h1⟩
        · rw [h1] at he; cases he
        · rw [h1] at he; cases he
        · rw [visible_split h.split h.lim, List.getElem?_append_right (by simp [hk]), hs]
          cases mb with
          | none => simp [visible, hk]
          | some m =>
            have := hlt m rfl
            simp only [visible, Option.map_some, List.length_map, hk, Nat.sub_self]
            rw [List.getElem?_take, if_pos (by omega)]
            rfl
    · rw [if_neg herr]
      have hnoerr : ∀ r ∈ ranks, (fetchMap mb r).error = false := by
        intro r hr
        by_contra hc
        apply herr
        rw [List.any_eq_true]
        exact ⟨fetchMap mb r, List.mem_map.mpr ⟨r, hr, rfl⟩, by simpa using hc⟩
      set avail := fs.map (fun f => f.data.isSome) with havail
      have hidx : ∀ f ∈ fs, f.rank.batchIndex = k := by
        intro f hf
        rw [hfs, List.mem_map] at hf
        obtain ⟨r, hr, rfl⟩ := hf
        obtain ⟨l, hl, own, h⟩ := forall₂_mem_right hinv hr
        rcases fetch_cases h with ⟨h1, _⟩ | ⟨a, rest, _, _, _, h1⟩ | ⟨rest, _, _, _, h1⟩ <;>
          rw [h1] <;> exact h.idx
      by_cases hany : avail.any id = true
      · -- some rank is available
        have hav : ∃ l ∈ loaders, ∃ r ∈ ranks, ∃ own a rest, RInv mb k cand own l r ∧
            r.src = .batch a :: rest ∧ own.length = k ∧ (∀ m, mb = some m → own.length < m) ∧
            fetchMap mb r = ⟨{ r with src := rest }, some a, false⟩ := by
          rw [havail, List.any_map, List.any_eq_true] at hany
          obtain ⟨f, hf, hd⟩ := hany
          rw [hfs, List.mem_map] at hf
          obtain ⟨r, hr, rfl⟩ := hf
          obtain ⟨l, hl, own, h⟩ := forall₂_mem_right hinv hr
          rcases fetch_cases h with ⟨h1, _⟩ | ⟨a, rest, hs, hk, hlt, h1⟩ | ⟨rest, _, _, _, h1⟩
          · rw [h1] at hd; cases hd
          · exact ⟨l, hl, r, hr, own, a, rest, h, hs, hk, hlt, h1⟩
          · rw [h1] at hd; cases hd
        have halive' : Alive mb (k + 1) loaders := by
          intro _
          obtain ⟨l, hl, r, _, own, a, rest, h, hs, hk, hlt, _⟩ := hav
          refine ⟨l, hl, ?_⟩
          rw [visible_split h.split h.lim, hs]
          cases mb with
          | none => simp [visible]; omega
          | some m => have := hlt m rfl; simp [visible]; omega
        -- the gathered batches in the first iteration
        have hgather : k = 0 → ((fs.map (·.data)).filterMap id).head? = cand := by
          intro hk
          subst hk
          rw [hcand]
          congr 1
          rw [hfs, List.map_map]
          clear havail hany hav halive' hidx hfne hrne hfuel halive hck hne hcand herr ih
          clear_value fs avail
          clear hfs fs avail
          induction hinv with
          | nil => rfl
          | @cons l r ls rs h _ ih =>
            obtain ⟨own, h⟩ := h
            have hnil : own = [] := List.eq_nil_of_length_eq_zero (Nat.le_zero.mp h.le)
            have hl : l = r.src := by rw [h.split, hnil]; simp
            have hd : (fetchMap mb r).data = headBatch mb l := by
              unfold headBatch
              rcases fetch_cases h with ⟨h1, hx⟩ | ⟨a, rest, hs, hk, hlt, h1⟩ | ⟨rest, hs, _, _, h1⟩
              · rw [h1, visible_exh h.split h.lim hx, hnil]; rfl
              · rw [h1, hl, hs]
                cases mb with
                | none => rfl
                | some m =>
                  have := hlt m rfl
                  obtain ⟨m', rfl⟩ : ∃ m', m = m' + 1 := ⟨m - 1, by omega⟩
                  rfl
              · have := hnoerr r (List.mem_cons_self ..)
                rw [h1] at this; cases this
            have ih' := ih (fun r hr => hnoerr r (List.mem_cons_of_mem _ hr))
            simp only [List.map_cons, Function.comp_def, List.filterMap_cons, id, hd] at ih' ⊢
            rw [ih']
        have hcand' : ∃ a, cand = some a := by
          by_cases hk : 0 < k
          · exact hck hk
          · have hk0 : k = 0 := by omega
            rw [← hgather hk0]
            obtain ⟨l, _, r, hr, own, a, rest, _, _, _, _, h1⟩ := hav
            have : a ∈ (fs.map (·.data)).filterMap id := by
              rw [List.mem_filterMap]
              exact ⟨some a, List.mem_map.mpr ⟨fetchMap mb r, List.mem_map.mpr ⟨r, hr, rfl⟩, by rw [h1]⟩, rfl⟩
            cases hh : (fs.map (·.data)).filterMap id with
            | nil => rw [hh] at this; simp at this
            | cons b t => exact ⟨b, rfl⟩
        obtain ⟨c0, hc0⟩ := hcand'
        -- all ranks finish the iteration
        have hfinish : ∀ c : Option (List (Option α)),
            (k = 0 → (∃ cs, c = some cs ∧ (cs.filterMap id).head? = cand) ∨ avail.all id = true) →
            ∃ ranks', allSome (fs.map (finishMap c)) = some ranks' ∧
              List.Forall₂ (fun l r => ∃ own, RInv mb (k + 1) cand own l r) loaders ranks' ∧
              (ranks'.map (fun r => r.src.length)).sum < (ranks.map (fun r => r.src.length)).sum := by
          intro c hc
          have hstep : List.Forall₂ (fun l r => ∃ r', finishMap c (fetchMap mb r) = some r' ∧
              ∃ own, RInv mb (k + 1) cand own l r') loaders ranks := by
            refine forall₂_and hinv ?_
            rintro l _ r hr ⟨own, h⟩
            rcases fetch_cases h with ⟨h1, hx⟩ | ⟨a, rest, hs, hk, hlt, h1⟩ | ⟨rest, hs, _, _, h1⟩
            · rw [h1]
              obtain ⟨r', h2, h3⟩ := rinv_extra h hx c c0 hc0 (by
                intro hk
                rcases hc hk with hc | hc
                · exact hc
                · exfalso
                  rw [havail, List.all_map, List.all_eq_true] at hc
                  have := hc (fetchMap mb r) (List.mem_map.mpr ⟨r, hr, rfl⟩)
                  rw [h1] at this
                  cases this)
              exact ⟨r', h2, own, h3⟩
            · rw [h1]
              obtain ⟨r', h2, h3⟩ := rinv_real h a rest hs hk hlt c
              exact ⟨r', h2, _, h3⟩
            · have := hnoerr r hr
              rw [h1] at this; cases this
          obtain ⟨ranks', h2, h3⟩ := allSome_forall₂ hstep
          refine ⟨ranks', by rw [hfs, List.map_map]; exact h2, h3, ?_⟩
          -- lengths
          have hsrc : ∀ (r r' : Rank α), finishMap c (fetchMap mb r) = some r' →
              r'.src = (fetchMap mb r).rank.src := by
            intro r r' h
            unfold finishMap at h
            split at h
            · cases h; rfl
            · split at h
              · cases h; rfl
              · split at h
                · cases h
                · split at h
                  · cases h
                  · cases h; rfl
          have hall : ranks'.map (fun r => r.src.length) =
              ranks.map (fun r => (fetchMap mb r).rank.src.length) := by
            clear hstep h3 hav hinv hfs havail hany halive' hgather hidx hfne hrne hfuel herr hnoerr
            clear_value fs avail
            induction ranks generalizing ranks' with
            | nil => simp [allSome] at h2; subst h2; rfl
            | cons r rs ihr =>
              simp only [List.map_cons] at h2
              cases hf : finishMap c (fetchMap mb r) with
              | none => simp only [Function.comp_def, hf, allSome] at h2; cases h2
              | some r' =>
                simp only [Function.comp_def, hf, allSome] at h2
                split at h2
                · rename_i l' hl'
                  cases h2
                  simp only [List.map_cons, hsrc r r' hf]
                  congr 1
                  exact ihr l' hl'
                · cases h2
          rw [hall]
          have hle : ∀ r : Rank α, (fetchMap mb r).rank.src.length ≤ r.src.length := by
            intro r
            unfold fetchMap
            split_ifs
            · exact Nat.le_refl _
            · cases hs : r.src with
              | nil => simp [hs]
              | cons i rest => cases i <;> simp
          obtain ⟨_, _, r, hr, _, a, rest, _, hs, _, _, h1⟩ := hav
          have hlt : (fetchMap mb r).rank.src.length < r.src.length := by rw [h1, hs]; simp
          clear hinv hfs havail hany halive' hgather hidx hfne hrne hfuel herr hnoerr h2 h3 hall hstep h1
          clear_value fs avail
          induction ranks with
          | nil => simp at hr
          | cons x xs ihx =>
            simp only [List.map_cons, List.sum_cons]
            have hrest : (xs.map (fun r => (fetchMap mb r).rank.src.length)).sum ≤
                (xs.map (fun r => r.src.length)).sum := by
              clear ihx hr
              induction xs with
              | nil => simp
              | cons y ys ihy => simp only [List.map_cons, List.sum_cons]; have := hle y; omega
            rcases List.mem_cons.mp hr with rfl | hr
            · omega
            · have := ihx hr
              have := hle x
              omega
        by_cases hex : k = 0 ∧ ¬ avail.all id = true
        · have hag : agree (fs.map (fun f => decideMap f.rank avail)) = some .exchange := by
            apply agree_const _ _ _ hfne
            intro f hf
            unfold decideMap
            rw [if_neg (by simpa using hany), hidx f hf, if_pos hex]
          rw [hag]
          dsimp only
          obtain ⟨ranks', h1, h2, h3⟩ := hfinish (some (fs.map (·.data)))
            (fun hk => Or.inl ⟨_, rfl, hgather hk⟩)
          rw [h1]
          exact ih (k + 1) ranks' h2 halive' (fun _ => ⟨c0, hc0⟩) (by omega)
        · have hag : agree (fs.map (fun f => decideMap f.rank avail)) = some .go := by
            apply agree_const _ _ _ hfne
            intro f hf
            unfold decideMap
            rw [if_neg (by simpa using hany), hidx f hf, if_neg hex]
          rw [hag]
          dsimp only
          obtain ⟨ranks', h1, h2, h3⟩ := hfinish none (by
            intro hk
            right
            by_contra hc
            exact hex ⟨hk, hc⟩)
          rw [h1]
          exact ih (k + 1) ranks' h2 halive' (fun _ => ⟨c0, hc0⟩) (by omega)
      · have hag : agree (fs.map (fun f => decideMap f.rank avail)) = some .stop := by
          apply agree_const _ _ _ hfne
          intro f _
          unfold decideMap
          rw [if_pos (by simpa using hany)]
        rw [hag]
        left
        refine ⟨k, _, rfl, halive, ?_⟩
        rw [hfs, List.map_map]
        apply forall₂_map_right
        refine forall₂_and hinv ?_
        rintro l _ r hr ⟨own, h⟩
        rcases fetch_cases h with ⟨h1, hx⟩ | ⟨a, rest, hs, hk, hlt, h1⟩ | ⟨rest, hs, _, _, h1⟩
        · simp only [Function.comp_def, h1]
          exact ⟨own, h, hx⟩
        · exfalso
          apply hany
          rw [havail, List.any_map, List.any_eq_true]
          exact ⟨fetchMap mb r, List.mem_map.mpr ⟨r, hr, rfl⟩, by rw [h1]; rfl⟩
        · have := hnoerr r hr
          rw [h1] at this; cases this

/-! ### One process -/

theorem loopSingle_spec {α : Type} (mb : Option Nat) (l : List (Item α)) :
    ∀ (fuel : Nat) (own : List α) (r : Rank α), l = own.map Item.batch ++ r.src →
      r.numReal = own.length → (∀ m, mb = some m → own.length ≤ m) →
      r.out = own.map (fun a => (a, true)) → r.src.length < fuel →
      (∃ (r' : Rank α) (own' : List α), loopSingle mb fuel r = .done [r'] ∧ r'.out = own'.map (fun a => (a, true)) ∧
        l = own'.map Item.batch ++ r'.src ∧ visible mb l = own'.map Item.batch) ∨
      (∃ (r' : Rank α) (own' : List α), loopSingle mb fuel r = .raised [r'] ∧ r'.out = own'.map (fun a => (a, true)) ∧
        (∃ t, visible mb l = own'.map Item.batch ++ Item.fails :: t)) := by
  intro fuel
  induction fuel with
  | zero => intro _ _ _ _ _ _ h; omega
  | succ fuel ih =>
    intro own r hs hn hlim hout hf
    unfold loopSingle
    by_cases hl : mb = some own.length
    · rw [hn, if_pos ((atLimit_iff hlim).mpr hl)]
      exact Or.inl ⟨r, own, rfl, hout, hs, visible_exh hs hlim (Or.inr hl)⟩
    · rw [hn, if_neg (fun hc => hl ((atLimit_iff hlim).mp hc))]
      have hlt : ∀ m, mb = some m → own.length < m := by
        intro m hm
        have := hlim m hm
        by_contra hc
        exact hl (by rw [hm]; congr 1; omega)
      cases hsrc : r.src with
      | nil => exact Or.inl ⟨r, own, rfl, hout, hs, visible_exh hs hlim (Or.inl hsrc)⟩
      | cons i rest =>
        cases i with
        | fails =>
          refine Or.inr ⟨_, own, rfl, hout, ?_⟩
          rw [visible_split hs hlim, hsrc]
          cases mb with
          | none => exact ⟨rest, rfl⟩
          | some m =>
            have := hlt m rfl
            obtain ⟨d, hd⟩ : ∃ d, m - own.length = d + 1 := ⟨m - own.length - 1, by omega⟩
            refine ⟨rest.take d, ?_⟩
            simp only [visible, Option.map_some, hd, List.take_succ_cons]
        | batch a =>
          dsimp only
          have := ih (own ++ [a])
            { r with src := rest, numReal := own.length + 1, out := r.out ++ [(a, true)] }
            (by rw [hs, hsrc]; simp) (by simp) (by intro m hm; have := hlt m hm; simp; omega)
            (by simp [hout]) (by simp [hsrc] at hf; simp; omega)
          exact this

/-! ### Theorems -/

theorem visible_map {α β : Type} (mb : Option Nat) (f : α → β) (l : List α) :
    visible mb (l.map f) = (visible mb l).map f := by
  cases mb <;> simp [visible, List.map_take]

theorem map_batch_inj {α : Type} {a b : List α} (h : a.map Item.batch = b.map Item.batch) : a = b := by
  exact List.map_injective_iff.mpr (fun x y h => by cases h; rfl) h

theorem longest_eq {β : Type} (ls : List (List β)) (k : Nat) (h1 : ∀ l ∈ ls, l.length ≤ k)
    (h2 : 0 < k → ∃ l ∈ ls, k ≤ l.length) : longest ls = k := by
  unfold longest
  have ub : (ls.map List.length).foldr max 0 ≤ k := by
    clear h2
    induction ls with
    | nil => simp
    | cons l ls ih =>
      have := ih (fun x hx => h1 x (List.mem_cons_of_mem _ hx))
      have := h1 l (List.mem_cons_self ..)
      simp only [List.map_cons, List.foldr_cons]
      omega
  have lb : ∀ l ∈ ls, l.length ≤ (ls.map List.length).foldr max 0 := by
    clear h1 h2 ub
    induction ls with
    | nil => simp
    | cons x ls ih =>
      intro l hl
      simp only [List.map_cons, List.foldr_cons]
      rcases List.mem_cons.mp hl with rfl | hl
      · omega
      · have := ih l hl; omega
  by_cases hk : 0 < k
  · obtain ⟨l, hl, hle⟩ := h2 hk
    have := lb l hl
    omega
  · omega

theorem start_inv {α : Type} (mb : Option Nat) (cand : Option α) (loaders : List (List (Item α))) :
    List.Forall₂ (fun l r => ∃ own, RInv mb 0 cand own l r) loaders (start loaders) := by
  unfold start
  induction loaders with
  | nil => exact .nil
  | cons l ls ih =>
    refine .cons ⟨[], ?_⟩ ih
    constructor <;> simp
    constructor <;> simp

theorem start_sum {α : Type} (loaders : List (List (Item α))) :
    ((start loaders).map (fun r => r.src.length)).sum < fuelFor loaders := by
  unfold start fuelFor
  simp [Function.comp_def]

theorem runMap_many {α : Type} (mb : Option Nat) (loaders : List (List (Item α)))
    (h : ∀ l, loaders ≠ [l]) : runMap mb loaders = loopMap mb (fuelFor loaders) (start loaders) := by
  unfold runMap
  split
  · rename_i l; exact absurd rfl (h l)
  · rfl

theorem headBatch_map {α : Type} (mb : Option Nat) (bs : List α) :
    headBatch mb (bs.map Item.batch) = (visible mb bs).head? := by
  unfold headBatch
  rw [visible_map]
  cases visible mb bs <;> rfl

theorem yields_own {α : Type} (own : List α) (cand : Option α) :
    Yields own cand own.length (own.map (fun a => (a, true))) := by
  constructor
  · simp
  · rw [List.take_of_length_le (by simp)]
  · exact Nat.le_refl _
  · intro p hp
    rw [List.drop_eq_nil_of_le (by simp)] at hp
    simp at hp

/-- Data loaders without failures, any number of ranks: every rank makes the same number of forwards,
namely the largest number of own batches; each rank's own batches (at most `max_batches`) come first, each
once and flagged real; the other forwards are flagged not real and reuse the rank's last batch, or, when
it has none, the first batch of the first rank that has one. Nothing beyond `max_batches` is fetched. -/
theorem C68_forwards {α : Type} (mb : Option Nat) (data : List (List α)) (hne : data ≠ []) :
    ∃ ranks, runMap mb (data.map (List.map Item.batch)) = .done ranks ∧
      List.Forall₂ (fun bs r =>
        Yields (visible mb bs) (firstBatch mb data) (longest (data.map (visible mb))) r.out ∧
        r.src = (bs.drop (visible mb bs).length).map Item.batch) data ranks := by
  by_cases h1 : ∃ bs, data = [bs]
  · obtain ⟨bs, rfl⟩ := h1
    have hrun : runMap mb ([bs].map (List.map Item.batch)) =
        loopSingle mb (fuelFor ([bs].map (List.map Item.batch))) { src := bs.map Item.batch } := rfl
    rw [hrun]
    rcases loopSingle_spec mb (bs.map Item.batch) (fuelFor ([bs].map (List.map Item.batch))) []
      { src := bs.map Item.batch } (by simp) rfl (by simp) rfl (by simp [fuelFor]) with
      ⟨r', own, h2, h3, h4, h5⟩ | ⟨r', own, h2, h3, t, h4⟩
    · rw [visible_map] at h5
      have hown := map_batch_inj h5
      refine ⟨_, h2, .cons ⟨?_, ?_⟩ .nil⟩
      · rw [hown, h3, show longest ([bs].map (visible mb)) = own.length by simp [longest, hown]]
        exact yields_own own _
      · rw [hown]
        have : (bs.map Item.batch).drop own.length = r'.src := by
          rw [h4, List.drop_append_of_le_length (by simp), List.drop_eq_nil_of_le (by simp)]; simp
        rw [← this, List.map_drop]
    · exfalso
      have : Item.fails ∈ visible mb (bs.map (Item.batch (α := α))) := by rw [h4]; simp
      rw [visible_map, List.mem_map] at this
      obtain ⟨a, _, h⟩ := this
      cases h
  · set loaders := data.map (List.map (Item.batch (α := α))) with hl
    have hln : loaders ≠ [] := by simpa [hl] using hne
    rw [runMap_many mb loaders (by
      intro l hc
      apply h1
      cases hd : data with
      | nil => exact absurd hd hne
      | cons b rest =>
        cases rest with
        | nil => exact ⟨b, rfl⟩
        | cons c rest => rw [hl, hd] at hc; simp at hc)]
    have hcand : firstBatch mb data = (loaders.filterMap (headBatch mb)).head? := by
      unfold firstBatch
      rw [hl, List.filterMap_map]
      congr 2
      funext bs
      exact (headBatch_map mb bs).symm
    rcases loopMap_outcome mb loaders hln (firstBatch mb data) hcand (fuelFor loaders) 0 (start loaders)
      (start_inv mb _ loaders) (fun h => absurd h (by omega)) (fun h => absurd h (by omega))
      (start_sum loaders) with ⟨k, ranks, h2, halive, h3⟩ | ⟨k, ranks, _, _, l, hlm, h4⟩
    · refine ⟨ranks, h2, ?_⟩
      have hk : longest (data.map (visible mb)) = k := by
        apply longest_eq
        · intro v hv
          rw [List.mem_map] at hv
          obtain ⟨bs, hbs, rfl⟩ := hv
          obtain ⟨r, _, own, hinv, hx⟩ := forall₂_mem_left h3 (List.mem_map.mpr ⟨bs, hbs, rfl⟩)
          have hv := visible_exh hinv.split hinv.lim hx
          rw [visible_map] at hv
          rw [map_batch_inj hv]
          exact hinv.le
        · intro h0
          obtain ⟨l, hlm, hle⟩ := halive h0
          rw [hl, List.mem_map] at hlm
          obtain ⟨bs, hbs, rfl⟩ := hlm
          rw [visible_map, List.length_map] at hle
          exact ⟨_, List.mem_map.mpr ⟨bs, hbs, rfl⟩, hle⟩
      rw [hk]
      rw [hl, List.forall₂_map_left_iff] at h3
      refine forall₂_imp ?_ h3
      rintro bs r ⟨own, hinv, hx⟩
      have hv := visible_exh hinv.split hinv.lim hx
      rw [visible_map] at hv
      have hown := map_batch_inj hv
      refine ⟨by rw [hown]; exact hinv.out, ?_⟩
      rw [hown]
      have : (bs.map Item.batch).drop own.length = r.src := by
        rw [hinv.split, List.drop_append_of_le_length (by simp), List.drop_eq_nil_of_le (by simp)]; simp
      rw [← this, List.map_drop]
    · exfalso
      rw [hl, List.mem_map] at hlm
      obtain ⟨bs, _, rfl⟩ := hlm
      have := List.mem_of_getElem? h4
      rw [visible_map, List.mem_map] at this
      obtain ⟨a, _, h⟩ := this
      cases h

/-- A failing loader: when the first failure visible to any rank is at position `i`, every rank raises
after exactly `i` forwards. -/
theorem C68_failure {α : Type} (mb : Option Nat) (loaders : List (List (Item α))) (i : Nat)
    (hi : ∃ l ∈ loaders, (visible mb l)[i]? = some .fails)
    (hmin : ∀ j < i, ∀ l ∈ loaders, (visible mb l)[j]? ≠ some .fails) :
    ∃ ranks, runMap mb loaders = .raised ranks ∧ ranks.length = loaders.length ∧
      ∀ r ∈ ranks, r.out.length = i := by
  have hne : loaders ≠ [] := by rintro rfl; obtain ⟨l, h, _⟩ := hi; simp at h
  by_cases h1 : ∃ l, loaders = [l]
  · obtain ⟨l, rfl⟩ := h1
    simp only [List.mem_singleton, exists_eq_left, forall_eq] at hi hmin
    have hrun : runMap mb [l] = loopSingle mb (fuelFor [l]) { src := l } := rfl
    rw [hrun]
    rcases loopSingle_spec mb l (fuelFor [l]) [] { src := l } (by simp) rfl (by simp) rfl
      (by simp [fuelFor]) with ⟨r', own, h2, h3, h4, h5⟩ | ⟨r', own, h2, h3, t, h4⟩
    · exfalso
      have := List.mem_of_getElem? hi
      rw [h5, List.mem_map] at this
      obtain ⟨a, _, h⟩ := this
      cases h
    · refine ⟨_, h2, rfl, ?_⟩
      intro r hr
      rw [List.mem_singleton] at hr
      subst hr
      rw [h3, List.length_map]
      rw [h4] at hi
      by_contra hc
      rcases Nat.lt_or_ge i own.length with hlt | hge
      · rw [List.getElem?_append_left (by simpa using hlt)] at hi
        simp [List.getElem?_eq_getElem hlt] at hi
      · apply hmin own.length (by omega)
        rw [h4, List.getElem?_append_right (by simp)]
        simp
  · rw [runMap_many mb loaders (fun l hc => h1 ⟨l, hc⟩)]
    rcases loopMap_outcome mb loaders hne _ rfl (fuelFor loaders) 0 (start loaders)
      (start_inv mb _ loaders) (fun h => absurd h (by omega)) (fun h => absurd h (by omega))
      (start_sum loaders) with ⟨k, ranks, h2, halive, h3⟩ | ⟨k, ranks, h2, h3, l, hlm, h4⟩
    · exfalso
      obtain ⟨l, hl, hf⟩ := hi
      obtain ⟨r, _, own, hinv, hx⟩ := forall₂_mem_left h3 hl
      rw [visible_exh hinv.split hinv.lim hx] at hf
      have := List.mem_of_getElem? hf
      rw [List.mem_map] at this
      obtain ⟨a, _, h⟩ := this
      cases h
    · refine ⟨ranks, h2, h3.length_eq.symm, ?_⟩
      have hk : k = i := by
        rcases Nat.lt_trichotomy k i with h | h | h
        · exact absurd h4 (hmin k h l hlm)
        · exact h
        · exfalso
          obtain ⟨l', hl', hf⟩ := hi
          obtain ⟨r, _, hclean, _⟩ := forall₂_mem_left h3 hl'
          exact hclean i h hf
      intro r hr
      obtain ⟨l', _, _, own, hy, _⟩ := forall₂_mem_right h3 hr
      rw [hy.count, hk]

/-- Whatever the loaders do, the ranks never deadlock and never crash between collectives: they all return
or all raise, after the same number of forwards. -/
theorem C68_never_stuck {α : Type} (mb : Option Nat) (loaders : List (List (Item α))) (hne : loaders ≠ []) :
    ∃ ranks n, (runMap mb loaders = .done ranks ∨ runMap mb loaders = .raised ranks) ∧
      ranks.length = loaders.length ∧ ∀ r ∈ ranks, r.out.length = n := by
  by_cases h1 : ∃ l, loaders = [l]
  · obtain ⟨l, rfl⟩ := h1
    have hrun : runMap mb [l] = loopSingle mb (fuelFor [l]) { src := l } := rfl
    rw [hrun]
    rcases loopSingle_spec mb l (fuelFor [l]) [] { src := l } (by simp) rfl (by simp) rfl
      (by simp [fuelFor]) with ⟨r', own, h2, h3, h4, h5⟩ | ⟨r', own, h2, h3, t, h4⟩
    · exact ⟨[r'], own.length, Or.inl h2, rfl, by simp [h3]⟩
    · exact ⟨[r'], own.length, Or.inr h2, rfl, by simp [h3]⟩
  · rw [runMap_many mb loaders (fun l hc => h1 ⟨l, hc⟩)]
    rcases loopMap_outcome mb loaders hne _ rfl (fuelFor loaders) 0 (start loaders)
      (start_inv mb _ loaders) (fun h => absurd h (by omega)) (fun h => absurd h (by omega))
      (start_sum loaders) with ⟨k, ranks, h2, halive, h3⟩ | ⟨k, ranks, h2, h3, l, hlm, h4⟩
    · refine ⟨ranks, k, Or.inl h2, h3.length_eq.symm, ?_⟩
      intro r hr
      obtain ⟨l', _, own, hinv, _⟩ := forall₂_mem_right h3 hr
      exact hinv.out.count
    · refine ⟨ranks, k, Or.inr h2, h3.length_eq.symm, ?_⟩
      intro r hr
      obtain ⟨l', _, _, own, hy, _⟩ := forall₂_mem_right h3 hr
      exact hy.count

end Verif.Eval
