import Verif.Forbid.Props57

/-! C57: the flags commute with the symmetries of the board. -/
namespace Verif.Forbid

/-- A symmetry of the plane that permutes the four lines. -/
structure Sym where
  σ : Pt → Pt
  τ : Pt → Pt
  στ : ∀ p, σ (τ p) = p
  τσ : ∀ p, τ (σ p) = p
  m : Pt → Pt
  n : Pt → Pt
  hm : ∀ d ∈ dirs, m d ∈ dirs ∧ n (m d) = d
  hn : ∀ d ∈ dirs, n d ∈ dirs ∧ m (n d) = d
  sgn : ∀ d ∈ dirs, (∀ p i, σ (go p d i) = go (σ p) (m d) i)
    ∨ (∀ p i, σ (go p d i) = go (σ p) (m d) (-i))

theorem Sym.inj (S : Sym) {p q : Pt} (h : S.σ p = S.σ q) : p = q := by
  rw [← S.τσ p, ← S.τσ q, h]

/-- The inverse symmetry. -/
def Sym.inv (S : Sym) : Sym where
  σ := S.τ
  τ := S.σ
  στ := S.τσ
  τσ := S.στ
  m := S.n
  n := S.m
  hm := S.hn
  hn := S.hm
  sgn := by
    intro d hd
    obtain ⟨h1, h2⟩ := S.hn d hd
    rcases S.sgn (S.n d) h1 with h | h
    · left
      intro p i
      apply S.inj
      rw [S.στ, h, S.στ, h2]
    · right
      intro p i
      apply S.inj
      rw [S.στ, h, S.στ, h2, neg_neg]

/-- `g'` is the image of `g`. -/
def Twin (S : Sym) (g g' : Grid) : Prop := ∀ p, g' (S.σ p) = g p

theorem Twin.inv {S : Sym} {g g' : Grid} (h : Twin S g g') : Twin S.inv g' g := by
  intro p
  show g (S.τ p) = g' p
  rw [← h (S.τ p), S.στ]

theorem Twin.place {S : Sym} {g g' : Grid} (h : Twin S g g') (p : Pt) :
    Twin S (place g p) (place g' (S.σ p)) := by
  intro q
  unfold Forbid.place
  by_cases hq : q = p
  · subst hq; simp
  · rw [if_neg hq, if_neg (fun h => hq (S.inj h)), h q]

/-- Rows map to rows, possibly reversed; the points beyond them map along. -/
theorem row_sym {S : Sym} {g g' : Grid} (h : Twin S g g') (p d : Pt) (hd : d ∈ dirs) (a b : Nat)
    (hr : Row g p d a b) :
    (Row g' (S.σ p) (S.m d) a b ∧ S.σ (go p d (-(a + 1 : Nat))) = go (S.σ p) (S.m d) (-(a + 1 : Nat))
      ∧ S.σ (go p d (b + 1 : Nat)) = go (S.σ p) (S.m d) (b + 1 : Nat))
    ∨ (Row g' (S.σ p) (S.m d) b a ∧ S.σ (go p d (-(a + 1 : Nat))) = go (S.σ p) (S.m d) (a + 1 : Nat)
      ∧ S.σ (go p d (b + 1 : Nat)) = go (S.σ p) (S.m d) (-(b + 1 : Nat))) := by
  rcases S.sgn d hd with hs | hs
  · left
    refine ⟨⟨⟨?_, ?_⟩, ?_, ?_⟩, hs _ _, hs _ _⟩
    · intro i h1 h2; rw [← hs, h]; exact hr.1.1 i h1 h2
    · rw [← hs, h]; exact hr.1.2
    · intro i h1 h2; rw [← hs, h]; exact hr.2.1 i h1 h2
    · rw [← hs, h]; exact hr.2.2
  · right
    have hs' : ∀ q i, S.σ (go q d (-i)) = go (S.σ q) (S.m d) i := fun q i => by rw [hs, neg_neg]
    refine ⟨⟨⟨?_, ?_⟩, ?_, ?_⟩, hs' _ _, hs _ _⟩
    · intro i h1 h2; rw [← hs, h]; exact hr.2.1 i h1 h2
    · rw [← hs, h]; exact hr.2.2
    · intro i h1 h2; rw [← hs', h]; exact hr.1.1 i h1 h2
    · rw [← hs', h]; exact hr.1.2

theorem fiveIn_sym {S : Sym} {g g' : Grid} (h : Twin S g g') (p d : Pt) (hd : d ∈ dirs)
    (hf : FiveIn g p d) : FiveIn g' (S.σ p) (S.m d) := by
  obtain ⟨a, b, hr, e⟩ := hf
  rcases row_sym h p d hd a b hr with ⟨h1, -⟩ | ⟨h1, -⟩
  · exact ⟨a, b, h1, e⟩
  · exact ⟨b, a, h1, by omega⟩

theorem five_sym {S : Sym} {g g' : Grid} (h : Twin S g g') (p : Pt) : Five g p ↔ Five g' (S.σ p) := by
  have key : ∀ (S : Sym) (g g' : Grid), Twin S g g' → ∀ p, Five g p → Five g' (S.σ p) := by
    rintro S g g' h p ⟨d, hd, hf⟩
    exact ⟨_, (S.hm d hd).1, fiveIn_sym h p d hd hf⟩
  refine ⟨key S g g' h p, fun hf => ?_⟩
  have := key S.inv g' g h.inv _ hf
  rwa [show S.inv.σ (S.σ p) = p from S.τσ p] at this

theorem over_sym {S : Sym} {g g' : Grid} (h : Twin S g g') (p : Pt) : Over g p ↔ Over g' (S.σ p) := by
  have key : ∀ (S : Sym) (g g' : Grid), Twin S g g' → ∀ p, Over g p → Over g' (S.σ p) := by
    rintro S g g' h p ⟨d, hd, a, b, hr, e⟩
    rcases row_sym h p d hd a b hr with ⟨h1, -⟩ | ⟨h1, -⟩
    · exact ⟨_, (S.hm d hd).1, a, b, h1, e⟩
    · exact ⟨_, (S.hm d hd).1, b, a, h1, by omega⟩
  refine ⟨key S g g' h p, fun hf => ?_⟩
  have := key S.inv g' g h.inv _ hf
  rwa [show S.inv.σ (S.σ p) = p from S.τσ p] at this

theorem shape_sym {S : Sym} {g g' : Grid} (h : Twin S g g') (p : Pt) : Shape g p ↔ Shape g' (S.σ p) := by
  unfold Shape
  rw [h p, five_sym h p, over_sym h p]

theorem completes_sym {S : Sym} {g g' : Grid} (h : Twin S g g') (p d e : Pt) (hd : d ∈ dirs)
    (hc : Completes g p d e) : Completes g' (S.σ p) (S.m d) (S.σ e) :=
  ⟨by rw [h e]; exact hc.1, fiveIn_sym (h.place p) e d hd hc.2⟩

theorem four_sym {S : Sym} {g g' : Grid} (h : Twin S g g') (p d : Pt) (hd : d ∈ dirs)
    (hf : Four g p d) : Four g' (S.σ p) (S.m d) := by
  obtain ⟨hs, a, b, hr, hc⟩ := hf
  refine ⟨(shape_sym h p).1 hs, ?_⟩
  rcases row_sym h p d hd a b hr with ⟨h1, e1, e2⟩ | ⟨h1, e1, e2⟩
  · refine ⟨a, b, h1, ?_⟩
    rw [← e1, ← e2]
    exact hc.imp (completes_sym h p d _ hd) (completes_sym h p d _ hd)
  · refine ⟨b, a, h1, ?_⟩
    rw [← e1, ← e2]
    exact hc.symm.imp (completes_sym h p d _ hd) (completes_sym h p d _ hd)

theorem twoWays_sym {S : Sym} {g g' : Grid} (h : Twin S g g') (p d : Pt) (hd : d ∈ dirs) (k : Nat)
    (hf : TwoWays g p d k) : TwoWays g' (S.σ p) (S.m d) k := by
  obtain ⟨a, b, hr, e, c1, c2⟩ := hf
  rcases row_sym h p d hd a b hr with ⟨h1, e1, e2⟩ | ⟨h1, e1, e2⟩
  · refine ⟨a, b, h1, e, ?_, ?_⟩
    · rw [← e1]; exact completes_sym h p d _ hd c1
    · rw [← e2]; exact completes_sym h p d _ hd c2
  · refine ⟨b, a, h1, by omega, ?_, ?_⟩
    · rw [← e2]; exact completes_sym h p d _ hd c2
    · rw [← e1]; exact completes_sym h p d _ hd c1

theorem straight_sym {S : Sym} {g g' : Grid} (h : Twin S g g') (p d : Pt) (hd : d ∈ dirs)
    (hf : StraightFour g p d) : StraightFour g' (S.σ p) (S.m d) :=
  ⟨(shape_sym h p).1 hf.1, twoWays_sym h p d hd 4 hf.2⟩

theorem m_ne (S : Sym) (d d' : Pt) (hd : d ∈ dirs) (hd' : d' ∈ dirs) (hne : d ≠ d') : S.m d ≠ S.m d' := by
  intro e
  apply hne
  rw [← (S.hm d hd).2, ← (S.hm d' hd').2, e]

theorem doubleFour_sym {S : Sym} {g g' : Grid} (h : Twin S g g') (p : Pt) :
    DoubleFour g p ↔ DoubleFour g' (S.σ p) := by
  have key : ∀ (S : Sym) (g g' : Grid), Twin S g g' → ∀ p, DoubleFour g p → DoubleFour g' (S.σ p) := by
    rintro S g g' h p ⟨he, h5, hx⟩
    refine ⟨by rw [h p]; exact he, fun hf => h5 ((five_sym h p).2 hf), ?_⟩
    rcases hx with ⟨d, hd, hs, k, hk, ht⟩ | ⟨d, hd, d', hd', hne, f1, f2⟩
    · exact Or.inl ⟨_, (S.hm d hd).1, (shape_sym h p).1 hs, k, hk, twoWays_sym h p d hd k ht⟩
    · exact Or.inr ⟨_, (S.hm d hd).1, _, (S.hm d' hd').1, m_ne S d d' hd hd' hne,
        four_sym h p d hd f1, four_sym h p d' hd' f2⟩
  refine ⟨key S g g' h p, fun hf => ?_⟩
  have := key S.inv g' g h.inv _ hf
  rwa [show S.inv.σ (S.σ p) = p from S.τσ p] at this

theorem rule_sym {S : Sym} {g g' : Grid} (h : Twin S g g') (D D' : Grid → Pt → Prop) (p : Pt)
    (hD : g p = .empty → ∀ e, D (place g p) e ↔ D' (place g' (S.σ p)) (S.σ e)) :
    DoubleThreeRule D g p ↔ DoubleThreeRule D' g' (S.σ p) := by
  have key : ∀ (S : Sym) (g g' : Grid) (D D' : Grid → Pt → Prop), Twin S g g' → ∀ p,
      (g p = .empty → ∀ e, D (place g p) e ↔ D' (place g' (S.σ p)) (S.σ e)) →
      DoubleThreeRule D g p → DoubleThreeRule D' g' (S.σ p) := by
    rintro S g g' D D' h p hD ⟨he, h5, d, hd, d', hd', hne, o1, o2⟩
    have ho : ∀ d ∈ dirs, OpenThree D g p d → OpenThree D' g' (S.σ p) (S.m d) := by
      rintro d hd ⟨hs, a, b, hr, e, hee, hemp, hst, hdf, hdt⟩
      refine ⟨(shape_sym h p).1 hs, ?_⟩
      have tail : g' (S.σ e) = .empty ∧ StraightFour (place g' (S.σ p)) (S.σ e) (S.m d)
          ∧ ¬DoubleFour (place g' (S.σ p)) (S.σ e) ∧ ¬D' (place g' (S.σ p)) (S.σ e) :=
        ⟨by rw [h e]; exact hemp, straight_sym (h.place p) e d hd hst,
          fun x => hdf ((doubleFour_sym (h.place p) e).2 x), fun x => hdt ((hD he e).2 x)⟩
      rcases row_sym h p d hd a b hr with ⟨h1, e1, e2⟩ | ⟨h1, e1, e2⟩
      · refine ⟨a, b, h1, S.σ e, ?_, tail⟩
        rcases hee with rfl | rfl
        · exact Or.inl e1
        · exact Or.inr e2
      · refine ⟨b, a, h1, S.σ e, ?_, tail⟩
        rcases hee with rfl | rfl
        · exact Or.inr e1
        · exact Or.inl e2
    exact ⟨by rw [h p]; exact he, fun hf => h5 ((five_sym h p).2 hf), _, (S.hm d hd).1, _,
      (S.hm d' hd').1, m_ne S d d' hd hd' hne, ho d hd o1, ho d' hd' o2⟩
  refine ⟨key S g g' D D' h p hD, fun hf => ?_⟩
  have := key S.inv g' g D' D h.inv (S.σ p) (by
    intro he e
    have he' : g p = .empty := by rw [← h p]; exact he
    have := hD he' (S.τ e)
    rw [S.στ] at this
    show D' (place g' (S.σ p)) e ↔ D (place g (S.τ (S.σ p))) (S.τ e)
    rw [S.τσ]
    exact this.symm) hf
  rwa [show S.inv.σ (S.σ p) = p from S.τσ p] at this

theorem forbidden_sym {S : Sym} {W H W' H' : Nat} (D D' : Grid → Pt → Prop) (hD : Reading W H D)
    (hD' : Reading W' H' D') (hon : ∀ p, OnBoard W H p ↔ OnBoard W' H' (S.σ p)) {g g' : Grid}
    (hg : IsBoard W H g) (h : Twin S g g') (p : Pt) : ForbiddenBy D g p ↔ ForbiddenBy D' g' (S.σ p) := by
  have bd : ∀ g g' : Grid, IsBoard W H g → Twin S g g' → IsBoard W' H' g' := by
    intro g g' hg h q
    rw [← S.στ q, h, hg, hon]
  have key : ∀ k, ∀ g g' : Grid, empties W H g < k → IsBoard W H g → Twin S g g' → ∀ p,
      D g p ↔ D' g' (S.σ p) := by
    intro k
    induction k with
    | zero => intro g g' hk; omega
    | succ k ih =>
        intro g g' hk hg h p
        rw [hD g hg p, hD' g' (bd g g' hg h) (S.σ p)]
        apply rule_sym h
        intro he e
        have hp : OnBoard W H p := by
          by_contra hn
          rw [(hg p).2 hn] at he
          exact absurd he (by decide)
        have := empties_place W H g p hp he
        exact ih _ _ (by omega) (isBoard_place W H g hg p hp) (h.place p) e
  unfold ForbiddenBy
  rw [key _ g g' (Nat.lt_succ_self _) hg h p, doubleFour_sym h p, over_sym h p, h p]

/-- Exchange of rows and columns. -/
def transposeSym : Sym where
  σ := fun p => (p.2, p.1)
  τ := fun p => (p.2, p.1)
  στ := fun _ => rfl
  τσ := fun _ => rfl
  m := fun d => if d = (0, 1) then (1, 0) else if d = (1, 0) then (0, 1) else d
  n := fun d => if d = (0, 1) then (1, 0) else if d = (1, 0) then (0, 1) else d
  hm := by decide
  hn := by decide
  sgn := by
    intro d hd
    simp only [dirs, List.mem_cons, List.not_mem_nil, or_false] at hd
    rcases hd with rfl | rfl | rfl | rfl
    · left; intro p i; simp [go]
    · right; intro p i; simp [go]
    · left; intro p i; simp [go]
    · left; intro p i; simp [go]

/-- Left-right mirror of a board with `W` columns. -/
def mirrorXSym (W : Nat) : Sym where
  σ := fun p => (W - 1 - p.1, p.2)
  τ := fun p => (W - 1 - p.1, p.2)
  στ := fun p => by apply Prod.ext <;> simp
  τσ := fun p => by apply Prod.ext <;> simp
  m := fun d => if d = (1, 1) then (1, -1) else if d = (1, -1) then (1, 1) else d
  n := fun d => if d = (1, 1) then (1, -1) else if d = (1, -1) then (1, 1) else d
  hm := by decide
  hn := by decide
  sgn := by
    intro d hd
    simp only [dirs, List.mem_cons, List.not_mem_nil, or_false] at hd
    rcases hd with rfl | rfl | rfl | rfl
    · left; intro p i; simp [go]
    · right; intro p i; simp [go]; omega
    · right; intro p i; simp [go]; omega
    · right; intro p i; simp [go]; omega

/-- Top-bottom mirror of a board with `H` rows. -/
def mirrorYSym (H : Nat) : Sym where
  σ := fun p => (p.1, H - 1 - p.2)
  τ := fun p => (p.1, H - 1 - p.2)
  στ := fun p => by apply Prod.ext <;> simp
  τσ := fun p => by apply Prod.ext <;> simp
  m := fun d => if d = (1, 1) then (1, -1) else if d = (1, -1) then (1, 1) else d
  n := fun d => if d = (1, 1) then (1, -1) else if d = (1, -1) then (1, 1) else d
  hm := by decide
  hn := by decide
  sgn := by
    intro d hd
    simp only [dirs, List.mem_cons, List.not_mem_nil, or_false] at hd
    rcases hd with rfl | rfl | rfl | rfl
    · right; intro p i; simp [go]; omega
    · left; intro p i; simp [go]; omega
    · left; intro p i; simp [go]
    · left; intro p i; simp [go]; omega

/-- From equivalent rules to equal flags. -/
theorem flags_sym {S : Sym} (H W H' W' fuel : Nat) (black white black' white' : Nat → Nat → Bool)
    (hf : H * W < fuel) (hf' : H' * W' < fuel)
    (hon : ∀ p, OnBoard W H p ↔ OnBoard W' H' (S.σ p))
    (ht : Twin S (inputGrid H W black white) (inputGrid H' W' black' white'))
    (f f' : List Bool) (h : transform fuel H W black white = some (some f))
    (h' : transform fuel H' W' black' white' = some (some f')) (y x y' x' : Nat) (hy : y < H) (hx : x < W)
    (hy' : y' < H') (hx' : x' < W') (he : S.σ ((x : Int), (y : Int)) = ((x' : Int), (y' : Int))) :
    f'[y' * W' + x']? = f[y * W + x]? := by
  obtain ⟨D, hD⟩ := reading_exists W H
  obtain ⟨D', hD'⟩ := reading_exists W' H'
  have size : ∀ (H W : Nat) (b w : Nat → Nat → Bool) (f : List Bool),
      transform fuel H W b w = some (some f) → H ≤ 22 ∧ W ≤ 22 := by
    intro H W b w f h
    unfold transform at h
    split_ifs at h with hc
    omega
  obtain ⟨s1, s2⟩ := size _ _ _ _ _ h
  obtain ⟨s1', s2'⟩ := size _ _ _ _ _ h'
  obtain ⟨g, g1, -, g3⟩ := (C57_flags H W fuel black white D hD hf).2 s1 s2
  obtain ⟨g', g1', -, g3'⟩ := (C57_flags H' W' fuel black' white' D' hD' hf').2 s1' s2'
  rw [h] at g1
  rw [h'] at g1'
  simp only [Option.some.injEq] at g1 g1'
  subst g1 g1'
  obtain ⟨v, hv, hP⟩ := g3 y x hy hx
  obtain ⟨v', hv', hP'⟩ := g3' y' x' hy' hx'
  rw [hv, hv']
  congr 1
  rw [Bool.eq_iff_iff, hP, hP', ← he]
  exact (forbidden_sym D D' hD hD' hon (inputGrid_board H W black white) ht _).symm

/-- **C57** (symmetry).  Transposing or mirroring the stones transposes or mirrors the flags.  These
three generate all eight symmetries of the board, so flags computed before or after a data-augmentation
symmetry agree. -/
theorem C57_symmetric (H W fuel : Nat) (black white : Nat → Nat → Bool) (hf : H * W < fuel)
    (f : List Bool) (h : transform fuel H W black white = some (some f)) (y x : Nat) (hy : y < H)
    (hx : x < W) :
    (∀ f', transform fuel W H (fun y x => black x y) (fun y x => white x y) = some (some f') →
      f'[x * H + y]? = f[y * W + x]?) ∧
    (∀ f', transform fuel H W (fun y x => black y (W - 1 - x)) (fun y x => white y (W - 1 - x))
        = some (some f') → f'[y * W + (W - 1 - x)]? = f[y * W + x]?) ∧
    (∀ f', transform fuel H W (fun y x => black (H - 1 - y) x) (fun y x => white (H - 1 - y) x)
        = some (some f') → f'[(H - 1 - y) * W + x]? = f[y * W + x]?) := by
  refine ⟨?_, ?_, ?_⟩
  · intro f' h'
    refine flags_sym (S := transposeSym) H W W H fuel black white _ _ hf (by rw [Nat.mul_comm]; exact hf)
      ?_ ?_ f f' h h' y x x y hy hx hx hy rfl
    · intro p; unfold OnBoard transposeSym; simp only; omega
    · intro p
      unfold inputGrid transposeSym
      simp only
      by_cases hp : 0 ≤ p.1 ∧ p.1 < W ∧ 0 ≤ p.2 ∧ p.2 < H
      · rw [if_pos hp, if_pos (by omega)]
      · rw [if_neg hp, if_neg (by omega)]
  · intro f' h'
    refine flags_sym (S := mirrorXSym W) H W H W fuel black white _ _ hf hf
      ?_ ?_ f f' h h' y x y (W - 1 - x) hy hx hy (by omega) ?_
    · intro p; unfold OnBoard mirrorXSym; simp only; omega
    · intro p
      unfold inputGrid mirrorXSym
      simp only
      by_cases hp : 0 ≤ p.1 ∧ p.1 < W ∧ 0 ≤ p.2 ∧ p.2 < H
      · rw [if_pos hp, if_pos (by omega)]
        have : W - 1 - ((W : Int) - 1 - p.1).toNat = p.1.toNat := by omega
        simp only [this]
      · rw [if_neg hp, if_neg (by omega)]
    · unfold mirrorXSym; apply Prod.ext <;> simp only; omega
  · intro f' h'
    refine flags_sym (S := mirrorYSym H) H W H W fuel black white _ _ hf hf
      ?_ ?_ f f' h h' y x (H - 1 - y) x hy hx (by omega) hx ?_
    · intro p; unfold OnBoard mirrorYSym; simp only; omega
    · intro p
      unfold inputGrid mirrorYSym
      simp only
      by_cases hp : 0 ≤ p.1 ∧ p.1 < W ∧ 0 ≤ p.2 ∧ p.2 < H
      · rw [if_pos hp, if_pos (by omega)]
        have : H - 1 - ((H : Int) - 1 - p.2).toNat = p.2.toNat := by omega
        simp only [this]
      · rw [if_neg hp, if_neg (by omega)]
    · unfold mirrorYSym; apply Prod.ext <;> simp only; omega

end Verif.Forbid
