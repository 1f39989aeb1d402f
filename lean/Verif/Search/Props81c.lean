import Verif.Search.Props81b
import Mathlib.Algebra.Order.Ring.Abs
import Mathlib.Tactic.Positivity

/-!
C81. `trueScore` is what the quantizer wants to minimise: the squared distance, or minus the inner product. The fast search works
on operands rounded with relative error `u` (BF16: `u = 2^-8`) and keeps `kept` codes of every `tileSize` consecutive ones.
-/

namespace Verif.Search

/-- coordinate `i` of a vector -/
def coord (v : Vec) (i : Nat) : ℚ := v.getD i 0

/-- squared distance, or minus the inner product, of `x` and code `k` -/
def trueScore (cosine : Bool) (dim : Nat) (codebook : List Vec) (x : Vec) (k : Nat) : ℚ :=
  if cosine then - ((List.range dim).map (fun i => coord x i * coord (codebook.getD k []) i)).sum
  else ((List.range dim).map (fun i => (coord x i - coord (codebook.getD k []) i) ^ 2)).sum

/-- how much a score can change by rounding the operands -/
def roundingError (cosine : Bool) (u : ℚ) (dim : Nat) (codebook : List Vec) (x : Vec) (k : Nat) : ℚ :=
  (if cosine then 1 else 2) * ((2 * u + u ^ 2) * ((List.range dim).map (fun i => |coord x i * coord (codebook.getD k []) i|)).sum)

/-- the supported dimensions: size of a tile and number of codes kept of each -/
def tileSize (cosine : Bool) (dim : Nat) : Nat := if cosine then 256 else if dim = 96 then 128 else 256

def kept (cosine : Bool) (dim : Nat) : Nat := if cosine then 3 else if dim = 32 then 4 else if dim = 64 then 2 else 3

theorem exact_true (cosine : Bool) (dim : Nat) (codebook : List Vec) (x : Vec) (k : Nat) :
    (if cosine then exactCosine dim x (codebook.getD k []) else exactL2 dim x (codebook.getD k [])) =
      trueScore cosine dim codebook x k := by
  unfold trueScore
  by_cases h : cosine = true
  · rw [if_pos h, if_pos h]
    unfold exactCosine at' coord
    congr 2
    apply List.map_congr_left
    intro i _
    ring
  · rw [if_neg h, if_neg h]
    unfold exactL2 at' coord
    congr 1
    apply List.map_congr_left
    intro i _
    ring

theorem sum_sub (l : List Nat) (f g : Nat → ℚ) : (l.map (fun i => f i - g i)).sum = (l.map f).sum - (l.map g).sum := by
  induction l with
  | nil => simp
  | cons a l ih =>
    rw [List.map_cons, List.sum_cons, List.map_cons, List.sum_cons, List.map_cons, List.sum_cons, ih]
    ring

theorem abs_sum_le (l : List Nat) (f g : Nat → ℚ) (h : ∀ i ∈ l, |f i| ≤ g i) : |(l.map f).sum| ≤ (l.map g).sum := by
  induction l with
  | nil => simp
  | cons a l ih =>
    rw [List.map_cons, List.sum_cons, List.map_cons, List.sum_cons]
    have h1 := h a (List.mem_cons_self ..)
    have h2 := ih (fun i hi => h i (List.mem_cons_of_mem _ hi))
    have h3 := abs_add_le (f a) ((l.map f).sum)
    linarith

theorem round_mul {round : ℚ → ℚ} {u : ℚ} (hu : 0 ≤ u) (hr : ∀ q, |round q - q| ≤ u * |q|) (a b : ℚ) :
    |round a * round b - a * b| ≤ (2 * u + u ^ 2) * |a * b| := by
  have e : round a * round b - a * b = (round a - a) * (round b - b) + (round a - a) * b + a * (round b - b) := by ring
  have h1 : |(round a - a) * (round b - b)| ≤ u ^ 2 * |a * b| := by
    rw [abs_mul, abs_mul]
    have := mul_le_mul (hr a) (hr b) (abs_nonneg _) (mul_nonneg hu (abs_nonneg _))
    linarith
  have h2 : |(round a - a) * b| ≤ u * |a * b| := by
    rw [abs_mul, abs_mul]
    have := mul_le_mul_of_nonneg_right (hr a) (abs_nonneg b)
    linarith
  have h3 : |a * (round b - b)| ≤ u * |a * b| := by
    rw [abs_mul, abs_mul]
    have := mul_le_mul_of_nonneg_left (hr b) (abs_nonneg a)
    linarith
  rw [e]
  have h4 := abs_add_le ((round a - a) * (round b - b) + (round a - a) * b) (a * (round b - b))
  have h5 := abs_add_le ((round a - a) * (round b - b)) ((round a - a) * b)
  linarith

theorem coarseDot_err {round : ℚ → ℚ} {u : ℚ} (hu : 0 ≤ u) (hr : ∀ q, |round q - q| ≤ u * |q|) (dim : Nat) (x c : Vec) :
    |coarseDot round dim x c - ((List.range dim).map (fun i => coord x i * coord c i)).sum| ≤
      (2 * u + u ^ 2) * ((List.range dim).map (fun i => |coord x i * coord c i|)).sum := by
  have e1 : coarseDot round dim x c - ((List.range dim).map (fun i => coord x i * coord c i)).sum =
      ((List.range dim).map (fun i => round (coord x i) * round (coord c i) - coord x i * coord c i)).sum := by
    unfold coarseDot
    rw [← sum_sub]
    rfl
  have e2 : (2 * u + u ^ 2) * ((List.range dim).map (fun i => |coord x i * coord c i|)).sum =
      ((List.range dim).map (fun i => (2 * u + u ^ 2) * |coord x i * coord c i|)).sum := by
    rw [List.sum_map_mul_left]
  rw [e1, e2]
  exact abs_sum_le _ _ _ (fun i _ => round_mul hu hr _ _)

theorem exactL2_expand (dim : Nat) (x c : Vec) :
    exactL2 dim x c = norm2 dim x + norm2 dim c - 2 * ((List.range dim).map (fun i => coord x i * coord c i)).sum := by
  unfold exactL2 norm2
  rw [← List.sum_map_mul_left, ← List.sum_map_add, ← sum_sub]
  congr 1
  apply List.map_congr_left
  intro i _
  unfold at' coord
  ring

theorem l2_err {round : ℚ → ℚ} {u : ℚ} (hu : 0 ≤ u) (hr : ∀ q, |round q - q| ≤ u * |q|) (dim : Nat) (codebook : List Vec) (x : Vec)
    (k : Nat) : |coarseL2 round dim x (codebook.getD k []) + 0 - exactL2 dim x (codebook.getD k [])| ≤
      roundingError false u dim codebook x k := by
  have h := coarseDot_err hu hr dim x (codebook.getD k [])
  have e : coarseL2 round dim x (codebook.getD k []) + 0 - exactL2 dim x (codebook.getD k []) =
      (-2) * (coarseDot round dim x (codebook.getD k []) -
        ((List.range dim).map (fun i => coord x i * coord (codebook.getD k []) i)).sum) := by
    rw [exactL2_expand]
    unfold coarseL2
    ring
  rw [e, abs_mul]
  unfold roundingError
  simp only [Bool.false_eq_true, if_false]
  have h2 : |(-2 : ℚ)| = 2 := by rw [abs_neg]; exact abs_of_nonneg (by norm_num)
  rw [h2]
  linarith

theorem cosine_err {round : ℚ → ℚ} {u : ℚ} (hu : 0 ≤ u) (hr : ∀ q, |round q - q| ≤ u * |q|) (dim : Nat) (codebook : List Vec) (x : Vec)
    (k : Nat) : |coarseCosine round dim x (codebook.getD k []) + 0 - exactCosine dim x (codebook.getD k [])| ≤
      roundingError true u dim codebook x k := by
  have h := coarseDot_err hu hr dim x (codebook.getD k [])
  have h0 := exact_true true dim codebook x k
  simp only [if_true] at h0
  have e : coarseCosine round dim x (codebook.getD k []) + 0 - exactCosine dim x (codebook.getD k []) =
      - (coarseDot round dim x (codebook.getD k []) -
        ((List.range dim).map (fun i => coord x i * coord (codebook.getD k []) i)).sum) := by
    rw [h0]
    unfold coarseCosine trueScore
    simp only [if_true]
    ring
  rw [e, abs_neg]
  unfold roundingError
  simp only [if_true]
  linarith

/-- what the search does: the full search, or a search over shortlists whose coarse scores are off by at most the rounding error -/
theorem search_cases (accelerated cosine : Bool) (round : ℚ → ℚ) (u : ℚ) (hu : 0 ≤ u) (hr : ∀ q, |round q - q| ≤ u * |q|)
    (device : Bool) (queries dim codeDim : Nat) (codebook : List Vec) (x : Vec) (hne : codebook ≠ []) :
    Near codebook.length (trueScore cosine dim codebook x)
      (search accelerated cosine round device queries dim codeDim codebook x) ∨
    ∃ (coarse : Nat → ℚ) (tiles : Nat), 0 < tileSize cosine dim ∧ tiles * tileSize cosine dim = codebook.length ∧ 0 < kept cosine dim ∧
      (∀ j, |coarse j + 0 - trueScore cosine dim codebook x j| ≤ roundingError cosine u dim codebook x j) ∧
      Outcome coarse (trueScore cosine dim codebook x) (tileSize cosine dim) (kept cosine dim) tiles
        (search accelerated cosine round device queries dim codeDim codebook x) := by
  have hfull : Near codebook.length (trueScore cosine dim codebook x) (fullArgmin (fun k => if cosine then
      exactCosine dim x (codebook.getD k []) else exactL2 dim x (codebook.getD k [])) codebook.length) := by
    have e : (fun k => if cosine then exactCosine dim x (codebook.getD k []) else exactL2 dim x (codebook.getD k [])) =
        trueScore cosine dim codebook x := by
      funext k
      exact exact_true cosine dim codebook x k
    rw [e]
    exact fullArgmin_near _ _ (List.length_pos_iff.2 hne)
  unfold search
  dsimp only
  cases accelerated with
  | false => left; exact hfull
  | true =>
    rw [if_pos rfl]
    cases cosine with
    | true =>
      rw [if_pos rfl]
      cases hacc : acceleratedCosine round device queries dim codeDim codebook x with
      | none => left; exact hfull
      | some r =>
        right
        obtain ⟨blockN, tiles, hsh, ⟨cfg, hcfg, hbn⟩, ho⟩ := cosine_outcome hacc
        have ht : tileSize true dim = blockN := by
          rw [← hbn]
          unfold cosineConfig at hcfg
          split at hcfg
          · cases hcfg; rfl
          · cases hcfg; rfl
          · cases hcfg
        have he : (fun k => exactCosine dim x (codebook.getD k [])) = trueScore true dim codebook x := by
          funext k
          have := exact_true true dim codebook x k
          simpa using this
        rw [he] at ho
        refine ⟨_, tiles, by rw [ht]; exact hsh.posN, by rw [ht]; exact hsh.cover, by unfold kept; simp, ?_, by rw [ht]; exact ho⟩
        intro j
        rw [← he]
        exact cosine_err hu hr dim codebook x j
    | false =>
      rw [if_neg (by decide)]
      cases hacc : acceleratedL2 round device queries dim codeDim codebook x with
      | none => left; exact hfull
      | some r =>
        right
        obtain ⟨blockN, tiles, hsh, ⟨cfg, hcfg, hbn⟩, ho⟩ := l2_outcome hacc
        have ht : tileSize false dim = blockN := by
          rw [← hbn]
          unfold l2Config at hcfg
          split at hcfg
          · cases hcfg; rfl
          · cases hcfg; rfl
          · cases hcfg; rfl
          · cases hcfg; rfl
          · cases hcfg
        have hk : kept false dim = topK dim := rfl
        have he : (fun k => exactL2 dim x (codebook.getD k [])) = trueScore false dim codebook x := by
          funext k
          have := exact_true false dim codebook x k
          simpa using this
        rw [he] at ho
        refine ⟨_, tiles, by rw [ht]; exact hsh.posN, by rw [ht]; exact hsh.cover, by
          rw [hk]; unfold topK; split_ifs <;> omega, ?_, by rw [ht, hk]; exact ho⟩
        intro j
        rw [← he]
        exact l2_err hu hr dim codebook x j

/-- Without the fast search, or when it does not apply, the search returns the nearest code, the first one on ties. -/
theorem C81_portable (accelerated cosine : Bool) (round : ℚ → ℚ) (device : Bool) (queries dim codeDim : Nat) (codebook : List Vec)
    (x : Vec) (hne : codebook ≠ []) (h : accelerated = false ∨ device = false ∨ (codebook.length ≠ 16384 ∧ codebook.length ≠ 65536) ∨
      queries < 4096 ∨ 65536 < queries) :
    Near codebook.length (trueScore cosine dim codebook x)
      (search accelerated cosine round device queries dim codeDim codebook x) := by
  have h1 : accelerated = true → acceleratedCosine round device queries dim codeDim codebook x = none := by
    intro ha
    unfold acceleratedCosine supportsCosine
    rw [if_neg]
    simp only [Bool.and_eq_true, Bool.or_eq_true, decide_eq_true_eq]
    rintro ⟨⟨⟨⟨h1, -⟩, h2⟩, -⟩, h3⟩
    rcases h with h | h | h | h | h
    · rw [ha] at h; cases h
    · rw [h1] at h; cases h
    · omega
    · omega
    · omega
  have h2 : accelerated = true → acceleratedL2 round device queries dim codeDim codebook x = none := by
    intro ha
    unfold acceleratedL2 supportsL2
    rw [if_neg]
    simp only [Bool.and_eq_true, Bool.or_eq_true, decide_eq_true_eq]
    rintro ⟨⟨⟨⟨h1, -⟩, h2⟩, -⟩, h3⟩
    rcases h with h | h | h | h | h
    · rw [ha] at h; cases h
    · rw [h1] at h; cases h
    · omega
    · split_ifs at h2 <;> omega
    · omega
  have e : (fun k => if cosine then exactCosine dim x (codebook.getD k []) else exactL2 dim x (codebook.getD k [])) =
      trueScore cosine dim codebook x := by
    funext k
    exact exact_true cosine dim codebook x k
  have hfull := fullArgmin_near (trueScore cosine dim codebook x) codebook.length (List.length_pos_iff.2 hne)
  unfold search
  dsimp only
  rw [e]
  cases accelerated with
  | false => exact hfull
  | true =>
    rw [if_pos rfl]
    cases cosine with
    | true => rw [if_pos rfl, h1 rfl]; exact hfull
    | false => rw [if_neg (by decide), h2 rfl]; exact hfull

/-- Whatever is chosen, the code is one of the table, and its score is at most the best one plus the rounding errors of
the scores. -/
theorem C81_near (accelerated cosine : Bool) (round : ℚ → ℚ) (u : ℚ) (hu : 0 ≤ u) (hr : ∀ q, |round q - q| ≤ u * |q|)
    (device : Bool) (queries dim codeDim : Nat) (codebook : List Vec) (x : Vec) (hne : codebook ≠ []) (E : ℚ)
    (hE : ∀ j, j < codebook.length → roundingError cosine u dim codebook x j ≤ E) :
    search accelerated cosine round device queries dim codeDim codebook x < codebook.length ∧
    ∀ k, k < codebook.length →
      trueScore cosine dim codebook x (search accelerated cosine round device queries dim codeDim codebook x) ≤
        trueScore cosine dim codebook x k + 2 * E := by
  have hE0 : 0 ≤ E := by
    refine le_trans ?_ (hE 0 (List.length_pos_iff.2 hne))
    unfold roundingError
    have hs : 0 ≤ ((List.range dim).map (fun i => |coord x i * coord (codebook.getD 0 []) i|)).sum :=
      List.sum_nonneg (by
        intro q hq
        obtain ⟨i, -, rfl⟩ := List.mem_map.1 hq
        exact abs_nonneg _)
    have h2 : 0 ≤ (2 * u + u ^ 2) * ((List.range dim).map (fun i => |coord x i * coord (codebook.getD 0 []) i|)).sum :=
      mul_nonneg (by positivity) hs
    split_ifs <;> linarith
  rcases search_cases accelerated cosine round u hu hr device queries dim codeDim codebook x hne with h | h
  · refine ⟨h.1, fun k hk => ?_⟩
    rcases h.2 k hk with g | ⟨g, -⟩ <;> linarith
  · obtain ⟨coarse, tiles, hp, hcov, hkp, herr, ho⟩ := h
    rw [← hcov]
    refine ⟨ho.1, fun k hk => ?_⟩
    obtain ⟨c, hc, hle⟩ := outcome_near hp hkp ho 0 _ (fun j _ => herr j) k hk
    have h1 := hE k (by rw [← hcov]; exact hk)
    have h2 := hE c (by rw [← hcov]; exact hc)
    linarith

/-- If, among the codes of its tile, at most `kept - 1` others have scores within twice the rounding error of the nearest
code, the search returns that code. -/
theorem C81_exact (accelerated cosine : Bool) (round : ℚ → ℚ) (u : ℚ) (hu : 0 ≤ u) (hr : ∀ q, |round q - q| ≤ u * |q|)
    (device : Bool) (queries dim codeDim : Nat) (codebook : List Vec) (x : Vec) (k : Nat)
    (hk : Near codebook.length (trueScore cosine dim codebook x) k) (E : ℚ)
    (hE : ∀ j, j < codebook.length → roundingError cosine u dim codebook x j ≤ E)
    (hfew : ((Finset.range codebook.length).filter (fun j => j / tileSize cosine dim = k / tileSize cosine dim ∧ j ≠ k ∧
      trueScore cosine dim codebook x j ≤ trueScore cosine dim codebook x k + 2 * E)).card < kept cosine dim) :
    search accelerated cosine round device queries dim codeDim codebook x = k := by
  have hne : codebook ≠ [] := by
    rintro rfl
    have := hk.1
    simp at this
  rcases search_cases accelerated cosine round u hu hr device queries dim codeDim codebook x hne with h | h
  · exact Near.unique h hk
  · obtain ⟨coarse, tiles, hp, hcov, hkp, herr, ho⟩ := h
    refine outcome_exact hp ho (by rw [hcov]; exact hk) (lt_of_le_of_lt ?_ hfew)
    unfold ahead
    obtain ⟨B, hB⟩ : ∃ B, B = tileSize cosine dim := ⟨_, rfl⟩
    rw [← hB] at hp hcov ⊢
    have hkt : k / B < tiles := (Nat.div_lt_iff_lt_mul hp).2 (by rw [hcov]; exact hk.1)
    apply Finset.card_le_card_of_injOn (fun j => k / B * B + j)
    · intro j hj
      simp only [Finset.coe_filter, Finset.mem_range, Set.mem_ofPred_eq] at hj ⊢
      obtain ⟨hj, hlt⟩ := hj
      have hin : k / B * B + j < codebook.length := by
        rw [← hcov]
        have : (k / B + 1) * B ≤ tiles * B := Nat.mul_le_mul_right _ hkt
        rw [Nat.succ_mul] at this
        omega
      refine ⟨hin, ?_, ?_, ?_⟩
      · rw [Nat.mul_comm, Nat.mul_add_div hp, Nat.div_eq_of_lt hj, Nat.add_zero]
      · intro hc
        rw [hc] at hlt
        rcases hlt with h | ⟨-, h⟩
        · exact lt_irrefl _ h
        · omega
      · have hle : coarse (k / B * B + j) ≤ coarse k := by
          rcases hlt with h | ⟨h, -⟩
          · exact h.le
          · exact h.le
        have h1 := abs_le.1 (herr (k / B * B + j))
        have h2 := abs_le.1 (herr k)
        have h3 := hE _ hin
        have h4 := hE _ hk.1
        linarith [h1.1, h1.2, h2.1, h2.2]
    · intro a _ b _ hab
      dsimp only at hab
      omega

/-- In every supported shape the tiles cover exactly the codes and the shortlists fill whole blocks: nothing outside the tables
is read. -/
theorem C81_in_bounds (device : Bool) (queries dim codes codeDim : Nat) :
    (supportsL2 device queries dim codes codeDim = true → ∃ cfg, l2Config dim = some cfg ∧
      cdiv codes cfg.blockN * cfg.blockN = codes ∧ (dim ≠ 64 → cfg.exactBlock ∣ cdiv codes cfg.blockN * topK dim)) ∧
    (supportsCosine device queries dim codes codeDim = true → ∃ cfg, cosineConfig dim = some cfg ∧
      cdiv codes cfg.blockN * cfg.blockN = codes) ∧
    ∀ (coarse : Nat → ℚ) (blockN keep tiles c : Nat), 0 < blockN → c ∈ candidates coarse blockN keep tiles → c < tiles * blockN := by
  refine ⟨?_, ?_, fun coarse blockN keep tiles c h hc => candidates_lt coarse blockN keep tiles h c hc⟩
  · intro h
    obtain ⟨cfg, h1, h2, -, h4⟩ := shapeL2 h
    exact ⟨cfg, h1, h2.cover, fun hd => Nat.dvd_of_mod_eq_zero (h4 hd)⟩
  · intro h
    obtain ⟨cfg, h1, h2⟩ := shapeCosine h
    exact ⟨cfg, h1, h2.cover⟩

end Verif.Search
