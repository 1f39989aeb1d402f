import Verif.Decode.Model
import Verif.Rng.Props
import Mathlib.Tactic.SplitIfs
import Mathlib.Tactic.ByContra

/-! # Lemmas about masks, scattering and the vectorised post-processing -/
namespace Verif.Decode
open Verif.Board Verif.Rng

variable {α β γ κ : Type}

theorem mapM_cons' (f : β → Option γ) (x : β) (xs : List β) :
    (x :: xs).mapM f = (f x).bind fun y => (xs.mapM f).map (y :: ·) := by
  simp only [List.mapM_cons, Option.pure_def, Option.bind_eq_bind]
  cases f x with
  | none => rfl
  | some y => cases List.mapM f xs <;> rfl

theorem mapM_none {f : β → Option γ} {l : List β} {x : β} (hx : x ∈ l) (h : f x = none) : l.mapM f = none := by
  induction l with
  | nil => simp at hx
  | cons a as ih =>
    rw [mapM_cons']
    rcases List.mem_cons.mp hx with rfl | hx
    · simp [h]
    · cases f a <;> simp [ih hx]

theorem mapM_congr' {f g : β → Option γ} {l : List β} (h : ∀ x ∈ l, f x = g x) : l.mapM f = l.mapM g := by
  induction l with
  | nil => rfl
  | cons a as ih => rw [mapM_cons', mapM_cons', h a (by simp), ih fun x hx => h x (by simp [hx])]

theorem mapM_length {f : β → Option γ} {l : List β} {r : List γ} (h : l.mapM f = some r) : r.length = l.length := by
  induction l generalizing r with
  | nil => simp at h; simp [h.symm]
  | cons a as ih =>
    rw [mapM_cons'] at h
    cases ha : f a with
    | none => simp [ha] at h
    | some y =>
      cases hs : as.mapM f with
      | none => simp [ha, hs] at h
      | some ys => simp [ha, hs] at h; simp [← h, ih hs]

theorem mapM_mem {f : β → Option γ} {l : List β} {r : List γ} (h : l.mapM f = some r) {x : β} (hx : x ∈ l) :
    ∃ y ∈ r, f x = some y := by
  induction l generalizing r with
  | nil => simp at hx
  | cons a as ih =>
    rw [mapM_cons'] at h
    cases ha : f a with
    | none => simp [ha] at h
    | some y =>
      cases hs : as.mapM f with
      | none => simp [ha, hs] at h
      | some ys =>
        simp [ha, hs] at h
        subst h
        rcases List.mem_cons.mp hx with rfl | hx
        · exact ⟨y, by simp, ha⟩
        · obtain ⟨z, hz, hf⟩ := ih hs hx
          exact ⟨z, by simp [hz], hf⟩

theorem mapM_mem_rev {f : β → Option γ} {l : List β} {r : List γ} (h : l.mapM f = some r) {y : γ} (hy : y ∈ r) :
    ∃ x ∈ l, f x = some y := by
  induction l generalizing r with
  | nil => simp at h; simp [h] at hy
  | cons a as ih =>
    rw [mapM_cons'] at h
    cases ha : f a with
    | none => simp [ha] at h
    | some z =>
      cases hs : as.mapM f with
      | none => simp [ha, hs] at h
      | some ys =>
        simp [ha, hs] at h
        subst h
        rcases List.mem_cons.mp hy with rfl | hy
        · exact ⟨a, by simp, ha⟩
        · obtain ⟨x, hx, hf⟩ := ih hs hy
          exact ⟨x, by simp [hx], hf⟩

theorem mapM_append' (f : β → Option γ) (l m : List β) :
    (l ++ m).mapM f = (l.mapM f).bind fun a => (m.mapM f).map (a ++ ·) := by
  induction l with
  | nil => cases h : List.mapM f m <;> simp [h]
  | cons a as ih =>
    rw [List.cons_append, mapM_cons', mapM_cons', ih]
    cases f a with
    | none => rfl
    | some y => cases as.mapM f <;> cases m.mapM f <;> rfl

/-! ### Masks -/

theorem maskSet_apply (p : β → Bool) (f : β → β) (l : List β) :
    maskSet (l.map p) l ((maskGet (l.map p) l).map f) = l.map fun x => if p x then f x else x := by
  induction l with
  | nil => rfl
  | cons a as ih => cases h : p a <;> simp [maskSet, maskGet, h, ih]

theorem maskGet_map (g : β → γ) (m : List Bool) (l : List β) : maskGet m (l.map g) = (maskGet m l).map g := by
  induction m generalizing l with
  | nil => cases l <;> simp [maskGet]
  | cons b bs ih => cases l <;> cases b <;> simp [maskGet, ih]

theorem maskSet_applyM (p : β → Bool) (g : β → γ) (f : γ → Option γ) (l : List β) :
    ((maskGet (l.map p) (l.map g)).mapM f).map (maskSet (l.map p) (l.map g)) =
      l.mapM fun x => if p x then f (g x) else some (g x) := by
  induction l with
  | nil => rfl
  | cons a as ih =>
    rw [mapM_cons']
    cases h : p a
    · simp only [List.map_cons, h, maskGet, maskSet, Bool.false_eq_true, if_false, Option.bind_some, ← ih]
      cases (maskGet (as.map p) (as.map g)).mapM f <;> rfl
    · simp only [List.map_cons, h, maskGet, if_true, ← ih, mapM_cons']
      cases f (g a) with
      | none => rfl
      | some y =>
        cases (maskGet (as.map p) (as.map g)).mapM f <;> rfl

/-! ### Scattering -/

theorem positionsOf_succ [DecidableEq κ] (k : κ) (i : Nat) (l : List κ) : positionsOf k (i + 1) l = (positionsOf k i l).map (· + 1) := by
  induction l generalizing i with
  | nil => rfl
  | cons x xs ih => simp only [positionsOf]; split_ifs <;> simp [ih]

theorem putAt_succ (o : Option β) (out : List (Option β)) (ps : List Nat) (vs : List β) :
    putAt (o :: out) (ps.map (· + 1)) vs = o :: putAt out ps vs := by
  induction ps generalizing out vs with
  | nil => cases vs <;> rfl
  | cons p ps ih => cases vs with
    | nil => rfl
    | cons v vs => simp [putAt, ih]

theorem takeAt_succ (b : β) (l : List β) (ps : List Nat) : takeAt (b :: l) (ps.map (· + 1)) = takeAt l ps := by
  unfold takeAt
  induction ps with
  | nil => rfl
  | cons p ps ih => rw [List.map_cons, mapM_cons', mapM_cons', ih]; simp

theorem takeAt_cons (l : List β) (p : Nat) (ps : List Nat) :
    takeAt l (p :: ps) = (l[p]?).bind fun y => (takeAt l ps).map (y :: ·) := mapM_cons' _ _ _

/-- Selecting the positions of a key is masking. -/
theorem takeAt_positions [DecidableEq κ] (k : κ) (ks : List κ) (l : List β) (h : l.length = ks.length) :
    takeAt l (positionsOf k 0 ks) = some (maskGet (ks.map (· == k)) l) := by
  induction ks generalizing l with
  | nil => cases l <;> simp_all [positionsOf, takeAt, maskGet]
  | cons x xs ih =>
    cases l with
    | nil => simp at h
    | cons b bs =>
      have h' : bs.length = xs.length := by simpa using h
      by_cases hx : x = k
      · simp [positionsOf, hx, takeAt_cons, positionsOf_succ, takeAt_succ, ih bs h', maskGet]
      · have hb : (x == k) = false := by simpa using hx
        simp [positionsOf, hx, hb, positionsOf_succ, takeAt_succ, ih bs h', maskGet]

/-- Storing at the positions of a key is a masked assignment. -/
theorem putAt_positions [DecidableEq κ] (k : κ) (ks : List κ) (out : List (Option β)) (vs : List β) (h : out.length = ks.length) :
    putAt out (positionsOf k 0 ks) vs = maskSet (ks.map (· == k)) out (vs.map some) := by
  induction ks generalizing out vs with
  | nil => cases out <;> simp_all [positionsOf, maskSet, putAt]
  | cons x xs ih =>
    cases out with
    | nil => simp at h
    | cons b bs =>
      have h' : bs.length = xs.length := by simpa using h
      by_cases hx : x = k
      · cases vs with
        | nil =>
          simp [positionsOf, hx, putAt, maskSet]
        | cons v vs => simp [positionsOf, hx, putAt, maskSet, positionsOf_succ, putAt_succ, ih bs vs h']
      · have hb : (x == k) = false := by simpa using hx
        simp [positionsOf, hx, hb, maskSet, positionsOf_succ, putAt_succ, ih bs vs h']

/-- One step of a scatter loop: the positions of key `k` get their values. -/
theorem scatter_step (items : List β) (key : β → Bool) (done : β → Bool) (f : β → Option γ) (vals : List γ)
    (hv : (maskGet (items.map key) items).mapM f = some vals) :
    maskSet (items.map key) (items.map fun x => if done x then f x else none) (vals.map some) =
      items.map fun x => if done x || key x then f x else none := by
  induction items generalizing vals with
  | nil => rfl
  | cons a as ih =>
    cases h : key a
    · simp only [List.map_cons, h, maskGet] at hv
      simp only [List.map_cons, h, maskSet, ih vals hv, Bool.or_false]
    · simp only [List.map_cons, h, maskGet, mapM_cons'] at hv
      cases hf : f a with
      | none => simp [hf] at hv
      | some y =>
        cases hs : (maskGet (as.map key) as).mapM f with
        | none => simp [hf, hs] at hv
        | some ys =>
          simp [hf, hs] at hv
          subst hv
          simp only [List.map_cons, h, maskSet, ih ys hs, Bool.or_true, if_true, hf]

theorem maskGet_eq_filter (p : β → Bool) (l : List β) : maskGet (l.map p) l = l.filter p := by
  induction l with
  | nil => rfl
  | cons a as ih => cases h : p a <;> simp [maskGet, h, ih]

/-- A fully written array is the list of its values. -/
theorem mapM_id_map (items : List β) (f : β → Option γ) : (items.map f).mapM id = items.mapM f := by
  induction items with
  | nil => rfl
  | cons a as ih => rw [List.map_cons, mapM_cons', mapM_cons', ih]; rfl

end Verif.Decode
