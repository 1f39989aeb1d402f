/-
C98: the exported codebook and index table reproduce the quantised features of the trained Mix9s-VQ network.
-/
import Verif.VqExport.Model
import Mathlib.Data.List.GetD
import Mathlib.Tactic.FieldSimp

namespace Verif.VqExport

open Verif.LineEnc
open Verif.Mapping (Mapping exportTable boardFeature NoOverlap C97_row netDir)
open Verif.Vq (Codebook Entry EvalRank group globalLayer bincount productQuantize C77_statistics FeatureOf)
open Verif.Quant (clampQ fakeQuant)
open Verif.Export (quantFeature packBytes readFeature C51_lossless_10 C51_quantised_range)

/-! ### Specification: reading the file -/

/-- Number `k` of an array of little-endian `uint16`. -/
def readIndex (bytes : List Nat) (k : Nat) : Nat := bytes.getD (2 * k) 0 + 256 * bytes.getD (2 * k + 1) 0

/-- What an engine reads for line code `v`: per codebook the index `[v][g]`, then the ten-bit row
`[g][index]`, in units of 1/32. -/
def fileFeature (num size dim : Nat) (cb ib : List Nat) (v : Nat) : List ℚ :=
  (List.range num).flatMap fun g => (List.range dim).map fun j =>
    (readFeature 10 cb ((g * size + readIndex ib (v * num + g)) * dim + j) : ℚ) / 32

/-- A layer as the constructor and the search make it. -/
structure Layer.Wf (V : Layer) : Prop where
  count : ∀ q ∈ V.books, q.codes.length = V.size
  width : ∀ q ∈ V.books, ∀ r ∈ q.codes, r.length = V.dim
  near : ∀ q ∈ V.books, ∀ x, q.nearest x < V.size

/-- A sample with its line encodings. -/
structure Sample.Wf (L : Nat) (s : Sample) : Prop where
  stones : NoOverlap s.board
  encoded : transformBoard L false s.board = some s.codes

/-! ### Lemmas -/

theorem getElem?_flatten_uniform {α : Type} (n : Nat) :
    ∀ (l : List (List α)), (∀ r ∈ l, r.length = n) → ∀ i j, j < n →
      l.flatten[i * n + j]? = (l[i]?).bind fun r => r[j]? := by
  intro l
  induction l with
  | nil => intro _ i j _; simp
  | cons a l ih =>
    intro h i j hj
    have ha : a.length = n := h a (List.mem_cons_self ..)
    rw [List.flatten_cons]
    cases i with
    | zero => rw [List.getElem?_append_left (by omega)]; simp
    | succ i =>
      have e : (i + 1) * n + j = n + (i * n + j) := by rw [Nat.succ_mul]; omega
      rw [e, List.getElem?_append_right (by omega), ha, Nat.add_sub_cancel_left,
        ih (fun r hr => h r (List.mem_cons_of_mem _ hr)) i j hj]
      simp

theorem readIndex_flatMap (xs : List Nat) (hx : ∀ x ∈ xs, x < 65536) (k : Nat) (hk : k < xs.length) :
    readIndex (xs.flatMap fun i => [i % 256, i / 256 % 256]) k = xs[k] := by
  have hf : ∀ j, j < 2 → (xs.flatMap fun i => [i % 256, i / 256 % 256])[k * 2 + j]?
      = ([xs[k] % 256, xs[k] / 256 % 256])[j]? := by
    intro j hj
    rw [List.flatMap_def, getElem?_flatten_uniform 2 _ (by
      intro r hr
      obtain ⟨x, -, rfl⟩ := List.mem_map.1 hr
      rfl) k j hj]
    rw [List.getElem?_map, List.getElem?_eq_getElem hk]
    rfl
  unfold readIndex
  have h0 := hf 0 (by omega)
  have h1 := hf 1 (by omega)
  rw [Nat.mul_comm 2 k, List.getD_eq_getElem?_getD, List.getD_eq_getElem?_getD]
  simp only [add_zero] at h0
  rw [h0, h1]
  simp only [List.getElem?_cons_zero, List.getElem?_cons_succ, Option.getD_some]
  have := hx _ (List.getElem_mem hk)
  omega

theorem straight_eq (x t : List ℚ) (h : x.length = t.length) : straight x t = t := by
  unfold straight
  induction x generalizing t with
  | nil => cases t with
    | nil => rfl
    | cons a t => simp at h
  | cons a x ih => cases t with
    | nil => simp at h
    | cons b t =>
      rw [List.zipWith_cons_cons, ih t (by simpa using h)]
      congr 1; ring

theorem finish_eq (x : List ℚ) : finish x = x.map fun v => (quantFeature v : ℚ) / 32 := by
  unfold finish
  apply List.map_congr_left
  intro v _
  exact Quant.fq_table v

theorem zip_self_map {α β : Type} (F : α → β) (l : List α) : l.zip (l.map F) = l.map fun r => (r, F r) := by
  induction l with
  | nil => rfl
  | cons a l ih => simp only [List.map_cons, List.zip_cons_cons, ih]

theorem zip_map_fst {α β γ δ : Type} (G : α → β → δ) (l : List α) (outs : List (β × γ)) :
    (l.zip outs).map (fun ro => G ro.1 ro.2.1) = (l.zip (outs.map Prod.fst)).map fun ro => G ro.1 ro.2 := by
  rw [List.zip_map_right, List.map_map]
  rfl

theorem quantize_length (V : Layer) (hV : V.Wf) (q : Codebook) (hq : q ∈ V.books) (x : List ℚ) :
    (q.quantize x).length = V.dim := by
  unfold Codebook.quantize
  have h : q.nearest x < q.codes.length := by rw [hV.count q hq]; exact hV.near q hq x
  rw [List.getD_eq_getElem _ _ h]
  exact hV.width q hq _ (List.getElem_mem h)

theorem product_length (V : Layer) (hV : V.Wf) (x : List ℚ) :
    (productQuantize V.dim V.books.zipIdx x).length = V.books.length * V.dim := by
  unfold productQuantize
  rw [List.length_flatMap]
  have : V.books.zipIdx.map (fun qg => (qg.1.quantize (group V.dim qg.2 x)).length)
      = V.books.zipIdx.map fun _ => V.dim := by
    apply List.map_congr_left
    rintro ⟨q, g⟩ hq
    have hm : q ∈ V.books := by
      have := List.mem_zipIdx hq
      obtain ⟨-, h2, h3⟩ := this
      rw [h3]; exact List.getElem_mem _
    exact quantize_length V hV q hm _
  rw [this]
  simp

/-- the feature of a line code -/
def codeFeature (m : Mapping ℚ) (batch L : Nat) (v : Nat) : List ℚ := clampFeature (exportTable m batch L v)

theorem mem_sampleEntries (m : Mapping ℚ) (dirs : List Nat) (s : Sample) (e : Entry) (h : e ∈ sampleEntries m dirs s) :
    ∃ d y x, d ∈ dirs ∧ y < s.board.H ∧ x < s.board.W ∧ e = ((s.codes d y x : Int), clampFeature (boardFeature m s.board d y x)) := by
  unfold sampleEntries at h
  simp only [List.mem_flatMap, List.mem_map, List.mem_range] at h
  obtain ⟨d, hd, y, hy, x, hx, rfl⟩ := h
  exact ⟨d, y, x, hd, hy, hx, rfl⟩

theorem code_of (L : Nat) (s : Sample) (hs : s.Wf L) (d y x : Nat) :
    (Spot.board s.board d y x).code L = some (s.codes d y x) := by
  show (transformBoard L false s.board).map (fun f => f d y x) = _
  rw [hs.encoded]; rfl

theorem entry_feature (m : Mapping ℚ) (batch L : Nat) (hb : 0 < batch) (hm : m.FieldOf L) (hfix : m.fix = true)
    (s : Sample) (hs : s.Wf L) (d y x : Nat) (hd : d < 4) (hy : y < s.board.H) (hx : x < s.board.W) :
    clampFeature (boardFeature m s.board d y x) = codeFeature m batch L (s.codes d y x) := by
  unfold codeFeature
  rw [C97_row m batch L hb hm s.board hs.stones d y x hd hy hx _ (code_of L s hs d y x), hfix]
  rfl

/-- rows of the exported index -/
def rowOf (V : Layer) (m : Mapping ℚ) (batch L v : Nat) : List Nat :=
  if v ∈ usedCodes L then V.books.zipIdx.map fun qg => qg.1.nearest (group V.dim qg.2 (codeFeature m batch L v))
  else List.replicate V.books.length 0

theorem rowOf_length (V : Layer) (m : Mapping ℚ) (batch L v : Nat) : (rowOf V m batch L v).length = V.books.length := by
  unfold rowOf
  split_ifs <;> simp

theorem rowOf_lt (V : Layer) (hV : V.Wf) (m : Mapping ℚ) (batch L v i : Nat) (h : i ∈ rowOf V m batch L v) :
    i < V.size := by
  unfold rowOf at h
  split_ifs at h
  · obtain ⟨⟨q, g⟩, hq, rfl⟩ := List.mem_map.1 h
    have hm : q ∈ V.books := by
      obtain ⟨-, h2, h3⟩ := List.mem_zipIdx hq
      rw [h3]; exact List.getElem_mem _
    exact hV.near q hm _
  · rw [List.mem_replicate] at h
    obtain ⟨hne, rfl⟩ := h
    cases hbk : V.books with
    | nil => rw [hbk] at hne; simp at hne
    | cons q l => exact lt_of_le_of_lt (Nat.zero_le _) (hV.near q (by rw [hbk]; exact List.mem_cons_self ..) [])

/-- exported codebooks, given the index table -/
def booksOf (V : Layer) (index : List (List Nat)) : List (List (List Int)) :=
  (V.books.map fun q => q.codes.map fun r => r.map quantFeature).zipIdx.map fun bg =>
    bg.1.zipIdx.map fun rc =>
      if (bincount V.size (index.map fun r => r.getD bg.2 0)).getD rc.2 0 = 0 then rc.1.map (fun _ => 0) else rc.1

theorem export_ok (V : Layer) (hV : V.Wf) (m : Mapping ℚ) (batch L : Nat) (hinit : V.initialized = true)
    (hmask : V.maskFits (totalNumEncoding L) = true) (hsize : V.size ≤ 65536) :
    exportCodebook V m batch L = .ok (booksOf V ((List.range (totalNumEncoding L)).map (rowOf V m batch L)),
      (List.range (totalNumEncoding L)).map (rowOf V m batch L)) := by
  unfold exportCodebook
  have h1 : V.books.all (fun q => decide (q.codes.length = V.size)) = true := by
    rw [List.all_eq_true]; intro q hq; simpa using hV.count q hq
  rw [if_neg (by rw [h1]; simp)]
  have h2 : vqIndices V ((List.range (totalNumEncoding L)).map fun v => clampFeature (exportTable m batch L v))
      = .ok ((List.range (totalNumEncoding L)).map fun v => V.books.zipIdx.map fun qg =>
        qg.1.nearest (group V.dim qg.2 (codeFeature m batch L v))) := by
    unfold vqIndices
    rw [if_neg (by rw [hinit]; simp), if_neg (by rw [List.length_map, List.length_range, hmask]; simp), List.map_map]
    rfl
  simp only []
  rw [h2]
  simp only []
  have h3 : ((List.range (totalNumEncoding L)).map fun v => V.books.zipIdx.map fun qg =>
        qg.1.nearest (group V.dim qg.2 (codeFeature m batch L v))).zipIdx.map (fun rv =>
        if rv.2 ∈ usedCodes L then rv.1 else List.replicate V.books.length 0)
      = (List.range (totalNumEncoding L)).map (rowOf V m batch L) := by
    apply List.ext_getElem
    · simp
    · intro i h1 h2
      simp only [List.getElem_map, List.getElem_zipIdx, List.getElem_range, zero_add]
      rfl
  rw [h3, if_neg (by omega)]
  have h4 : ((List.range (totalNumEncoding L)).map (rowOf V m batch L)).any
      (fun r => r.any fun i => decide (V.size ≤ i)) = false := by
    rw [List.any_eq_false]
    intro r hr
    obtain ⟨v, -, rfl⟩ := List.mem_map.1 hr
    simp only [List.any_eq_true, decide_eq_true_eq, not_exists, not_and, Nat.not_le]
    intro i hi
    exact rowOf_lt V hV m batch L v i hi
  rw [if_neg (by rw [h4]; simp)]
  have h5 : ((List.range (totalNumEncoding L)).map (rowOf V m batch L)).map (fun r => r.map fun i => i % 65536)
      = (List.range (totalNumEncoding L)).map (rowOf V m batch L) := by
    rw [List.map_map]
    apply List.map_congr_left
    intro v _
    show (rowOf V m batch L v).map _ = rowOf V m batch L v
    conv_rhs => rw [← List.map_id (rowOf V m batch L v)]
    apply List.map_congr_left
    intro i hi
    have := rowOf_lt V hV m batch L v i hi
    exact Nat.mod_eq_of_lt (by omega)
  rw [h5]
  rfl

theorem export_vq_error (V : Layer) (hV : V.Wf) (m : Mapping ℚ) (batch L : Nat) (e : String)
    (h : vqIndices V ((List.range (totalNumEncoding L)).map fun v => clampFeature (exportTable m batch L v)) = .error e) :
    exportCodebook V m batch L = .error e := by
  unfold exportCodebook
  have h1 : V.books.all (fun q => decide (q.codes.length = V.size)) = true := by
    rw [List.all_eq_true]; intro q hq; simpa using hV.count q hq
  rw [if_neg (by rw [h1]; simp)]
  simp only []
  rw [h]

theorem export_uninit (V : Layer) (hV : V.Wf) (m : Mapping ℚ) (batch L : Nat) (h : V.initialized = false) :
    exportCodebook V m batch L = .error "TypeError: 'NoneType' object is not subscriptable" := by
  apply export_vq_error V hV
  unfold vqIndices
  rw [if_pos h]

theorem export_mask (V : Layer) (hV : V.Wf) (m : Mapping ℚ) (batch L : Nat) (hi : V.initialized = true)
    (h : V.maskFits (totalNumEncoding L) = false) :
    exportCodebook V m batch L = .error "evaluation VQ mask must contain one flag per quantizer entry" := by
  apply export_vq_error V hV
  unfold vqIndices
  rw [if_neg (by rw [hi]; simp), if_pos (by rw [List.length_map, List.length_range]; exact h)]

theorem export_large (V : Layer) (hV : V.Wf) (m : Mapping ℚ) (batch L : Nat) (hi : V.initialized = true)
    (hm : V.maskFits (totalNumEncoding L) = true) (h : 65536 < V.size) :
    exportCodebook V m batch L = .error "assume uint16 for codebook index now" := by
  unfold exportCodebook
  have h1 : V.books.all (fun q => decide (q.codes.length = V.size)) = true := by
    rw [List.all_eq_true]; intro q hq; simpa using hV.count q hq
  rw [if_neg (by rw [h1]; simp)]
  simp only []
  unfold vqIndices
  rw [if_neg (by rw [hi]; simp), if_neg (by rw [List.length_map, List.length_range, hm]; simp)]
  simp only []
  rw [if_pos h]

theorem booksOf_row (V : Layer) (index : List (List Nat)) (g i : Nat) (hg : g < V.books.length) (hi : i < V.books[g].codes.length) :
    ((booksOf V index)[g]?).bind (fun b => b[i]?) =
      some (if (bincount V.size (index.map fun r => r.getD g 0)).getD i 0 = 0 then
        (V.books[g].codes[i].map quantFeature).map (fun _ => 0) else V.books[g].codes[i].map quantFeature) := by
  unfold booksOf
  rw [List.getElem?_eq_getElem (by simpa using hg)]
  simp only [List.getElem_map, List.getElem_zipIdx, zero_add, Option.bind_some]
  rw [List.getElem?_eq_getElem (by simpa using hi)]
  simp only [List.getElem_map, List.getElem_zipIdx, zero_add]

theorem booksOf_shape (V : Layer) (hV : V.Wf) (index : List (List Nat)) :
    ∀ b ∈ booksOf V index, b.length = V.size ∧ ∀ r ∈ b, r.length = V.dim ∧ ∀ z ∈ r, -512 ≤ z ∧ z ≤ 511 := by
  intro b hb
  unfold booksOf at hb
  obtain ⟨⟨b', g⟩, hbg, rfl⟩ := List.mem_map.1 hb
  obtain ⟨-, h2, h3⟩ := List.mem_zipIdx hbg
  simp only [List.length_map, Nat.zero_add] at h2
  simp only [Nat.sub_zero, List.getElem_map] at h3
  have h3' : b' = (V.books[g]'h2).codes.map fun r => r.map quantFeature := h3
  clear h3 hb hbg
  subst h3'
  have hq : V.books[g] ∈ V.books := List.getElem_mem _
  refine ⟨by simpa using hV.count _ hq, ?_⟩
  intro r hr
  obtain ⟨⟨r', c⟩, hrc, rfl⟩ := List.mem_map.1 hr
  obtain ⟨-, h5, h6⟩ := List.mem_zipIdx hrc
  simp only [List.length_map, Nat.zero_add] at h5
  simp only [Nat.sub_zero, List.getElem_map] at h6
  have h6' : r' = ((V.books[g]'h2).codes[c]'h5).map quantFeature := h6
  clear h6 hr hrc
  subst h6'
  have hw := hV.width _ hq _ (List.getElem_mem h5)
  constructor
  · split_ifs <;> simpa using hw
  · intro z hz
    split_ifs at hz
    · rw [List.map_map] at hz
      obtain ⟨a, -, rfl⟩ := List.mem_map.1 hz
      simp
    · obtain ⟨a, -, rfl⟩ := List.mem_map.1 hz
      exact ⟨(C51_quantised_range a).1, (C51_quantised_range a).2.1⟩

/-- what the file gives for a used code -/
theorem file_row (V : Layer) (hV : V.Wf) (m : Mapping ℚ) (batch L v : Nat) (hsize : V.size ≤ 65536)
    (hv : v < totalNumEncoding L) (hu : v ∈ usedCodes L) (index : List (List Nat))
    (hindex : index = (List.range (totalNumEncoding L)).map (rowOf V m batch L)) :
    fileFeature V.books.length V.size V.dim (codebookBytes (booksOf V index)) (indexBytes index) v
      = finish (productQuantize V.dim V.books.zipIdx (codeFeature m batch L v)) := by
  have hshape := booksOf_shape V hV index
  rw [finish_eq]
  unfold fileFeature productQuantize
  rw [List.map_flatMap, List.flatMap_def, List.flatMap_def]
  congr 1
  apply List.ext_getElem
  · simp
  · intro g h1 h2
    have hg : g < V.books.length := by simpa using h1
    simp only [List.getElem_map, List.getElem_range, List.getElem_zipIdx, zero_add]
    have hqm : V.books[g] ∈ V.books := List.getElem_mem hg
    obtain ⟨n, hn⟩ : ∃ n, n = V.books[g].nearest (group V.dim g (codeFeature m batch L v)) := ⟨_, rfl⟩
    have hns : n < V.size := by rw [hn]; exact hV.near _ hqm _
    have hnc : n < V.books[g].codes.length := by rw [hV.count _ hqm]; exact hns
    -- the index
    have hrow : index[v]? = some (rowOf V m batch L v) := by
      rw [hindex, List.getElem?_map, List.getElem?_range hv]; rfl
    have hng : (rowOf V m batch L v)[g]? = some n := by
      unfold rowOf
      rw [if_pos hu, List.getElem?_map, List.getElem?_eq_getElem (by simpa using hg)]
      simp only [List.getElem_zipIdx, zero_add, Option.map_some]
      rw [hn]
    have hrl : ∀ r ∈ index, r.length = V.books.length := by
      intro r hr
      rw [hindex] at hr
      obtain ⟨w, -, rfl⟩ := List.mem_map.1 hr
      exact rowOf_length V m batch L w
    have hflat : index.flatten[v * V.books.length + g]? = some n := by
      rw [getElem?_flatten_uniform V.books.length index hrl v g hg, hrow]
      exact hng
    have hread : readIndex (indexBytes index) (v * V.books.length + g) = n := by
      obtain ⟨hlt, he⟩ := List.getElem?_eq_some_iff.1 hflat
      unfold indexBytes
      rw [readIndex_flatMap _ _ _ hlt, he]
      intro x hx
      obtain ⟨r, hr, hxr⟩ := List.mem_flatten.1 hx
      rw [hindex] at hr
      obtain ⟨w, -, rfl⟩ := List.mem_map.1 hr
      have := rowOf_lt V hV m batch L w x hxr
      omega
    rw [hread]
    -- the code is used
    have hcount : (bincount V.size (index.map fun r => r.getD g 0)).getD n 0 ≠ 0 := by
      unfold bincount
      rw [List.getD_eq_getElem _ _ (by simpa using hns)]
      simp only [List.getElem_map, List.getElem_range]
      rw [Nat.ne_zero_iff_zero_lt, List.count_pos_iff]
      refine List.mem_map.2 ⟨rowOf V m batch L v, List.mem_of_getElem? hrow, ?_⟩
      rw [List.getD_eq_getElem?_getD, hng]; rfl
    have hbook := booksOf_row V index g n hg hnc
    rw [if_neg hcount] at hbook
    have hw := hV.width _ hqm _ (List.getElem_mem hnc)
    unfold Codebook.quantize
    rw [← hn, List.getD_eq_getElem _ _ hnc]
    apply List.ext_getElem
    · simp [hw]
    · intro j h3 h4
      have hj : j < V.dim := by simpa using h3
      simp only [List.getElem_map, List.getElem_range]
      have hfl : (booksOf V index).flatten.flatten[(g * V.size + n) * V.dim + j]?
          = some (quantFeature (V.books[g].codes[n][j]'(by rw [hw]; exact hj))) := by
        rw [getElem?_flatten_uniform V.dim _ (by
          intro r hr
          obtain ⟨b, hb, hrb⟩ := List.mem_flatten.1 hr
          exact ((hshape b hb).2 r hrb).1) _ j hj,
          getElem?_flatten_uniform V.size _ (fun b hb => (hshape b hb).1) g n hns, hbook]
        simp only [Option.bind_some]
        rw [List.getElem?_map, List.getElem?_eq_getElem (by rw [hw]; exact hj)]
        rfl
      obtain ⟨hlt, he⟩ := List.getElem?_eq_some_iff.1 hfl
      unfold codebookBytes
      rw [C51_lossless_10 _ _ _ hlt, he]
      intro z hz
      obtain ⟨r, hr, hzr⟩ := List.mem_flatten.1 hz
      obtain ⟨b, hb, hrb⟩ := List.mem_flatten.1 hr
      exact ((hshape b hb).2 r hrb).2 z hzr

/-! ### Theorems -/

/-- **C98.**  The export succeeds, and for every evaluation batch — any boards, any number of processes — the
features the trained network uses behind the quantiser are, cell for cell, those read from the exported file
through the line code of the cell. -/
theorem C98_file_is_network (distributed : Bool) (V : Layer) (hV : V.Wf) (m : Mapping ℚ) (batch L : Nat)
    (hbatch : 0 < batch) (hm : m.FieldOf L) (hfix : m.fix = true) (hdim : m.dimOut = V.books.length * V.dim)
    (hinit : V.initialized = true) (hmask : V.maskFits (totalNumEncoding L) = true) (hsize : V.size ≤ 65536)
    (dirs : List Nat) (hdirs : ∀ d ∈ dirs, d < 4) (procs : List Proc)
    (hd : distributed = true ∨ procs.length = 1)
    (hp : ∀ p ∈ procs, p.real.length = p.samples.length ∧ ∀ s ∈ p.samples, s.Wf L) :
    ∃ books index, exportCodebook V m batch L = .ok (books, index) ∧
      networkLayer distributed V m dirs procs = .ok (procs.map fun p => p.samples.flatMap fun s =>
        dirs.flatMap fun d => (List.range s.board.H).flatMap fun y => (List.range s.board.W).map fun x =>
          fileFeature V.books.length V.size V.dim (codebookBytes books) (indexBytes index) (s.codes d y x)) := by
  refine ⟨_, _, export_ok V hV m batch L hinit hmask hsize, ?_⟩
  obtain ⟨index, hindex⟩ : ∃ index, index = (List.range (totalNumEncoding L)).map (rowOf V m batch L) := ⟨_, rfl⟩
  rw [← hindex]
  unfold networkLayer
  simp only []
  rw [if_neg (by rw [hinit]; simp)]
  have hf : FeatureOf (fun i => codeFeature m batch L i.toNat) (procs.map (Proc.rank m dirs)) := by
    intro r hr row hrow e he
    obtain ⟨p, hpm, rfl⟩ := List.mem_map.1 hr
    obtain ⟨s, hs, rfl⟩ := List.mem_map.1 hrow
    obtain ⟨d, y, x, hdm, hy, hx, rfl⟩ := mem_sampleEntries m dirs s e he
    simp only [Int.toNat_natCast]
    exact entry_feature m batch L hbatch hm hfix s ((hp p hpm).2 s hs) d y x (hdirs d hdm) hy hx
  obtain ⟨outs, ho, hfst, -⟩ := C77_statistics distributed V.dim V.books.zipIdx (procs.map (Proc.rank m dirs))
    (by rw [List.length_map]; exact hd) (by
      intro r hr
      obtain ⟨p, hpm, rfl⟩ := List.mem_map.1 hr
      show p.real.length = (p.samples.map _).length
      rw [List.length_map]; exact (hp p hpm).1) _ hf
  rw [ho]
  simp only []
  congr 1
  rw [zip_map_fst (fun (r : EvalRank) (o : List (List ℚ)) =>
      (r.entries.zip o).map fun et => finish (straight et.1.2 et.2)), hfst, zip_self_map, List.map_map, List.map_map]
  apply List.map_congr_left
  intro p hpm
  simp only [Function.comp_apply]
  rw [zip_self_map, List.map_map]
  show ((p.samples.map (sampleEntries m dirs)).flatten).map _ = _
  rw [← List.flatMap_def, List.map_flatMap]
  rw [List.flatMap_def, List.flatMap_def]
  congr 1
  apply List.map_congr_left
  intro s hs
  unfold sampleEntries
  rw [List.map_flatMap, List.flatMap_def, List.flatMap_def]
  congr 1
  apply List.map_congr_left
  intro d hdm
  rw [List.map_flatMap, List.flatMap_def, List.flatMap_def]
  congr 1
  apply List.map_congr_left
  intro y hy
  rw [List.map_map]
  apply List.map_congr_left
  intro x hx
  rw [List.mem_range] at hy hx
  simp only [Function.comp_apply]
  have hsw := (hp p hpm).2 s hs
  have hspot : (Spot.board s.board d y x).Valid := ⟨hdirs d hdm, hy, hx⟩
  have hcode := code_of L s hsw d y x
  have hlt := C56_code_in_range L _ hspot _ hcode
  have hL : validLength L false = true := by
    have := hsw.encoded
    unfold transformBoard at this
    by_contra hne
    rw [if_neg (fun hc => hne hc.1)] at this
    exact absurd this (by simp)
  have hused := (C56_usage_flags L hL _).2 ⟨_, hspot, hcode⟩
  rw [straight_eq _ _ (by
      rw [product_length V hV]
      show (List.map _ (boardFeature m s.board d y x)).length = _
      rw [List.length_map]
      unfold boardFeature
      rw [List.length_map, List.length_range]
      exact hdim),
    entry_feature m batch L hbatch hm hfix s hsw d y x (hdirs d hdm) hy hx]
  exact (file_row V hV m batch L _ hsize hlt hused index hindex).symm

/-- **C98** (types).  Every exported codebook entry fits ten bits, every exported index is below the codebook
size and fits `uint16`, and the tables have their documented shapes. -/
theorem C98_types (V : Layer) (hV : V.Wf) (m : Mapping ℚ) (batch L : Nat) (books : List (List (List Int)))
    (index : List (List Nat)) (h : exportCodebook V m batch L = .ok (books, index)) :
    books.length = V.books.length ∧ (∀ b ∈ books, b.length = V.size ∧ ∀ r ∈ b, r.length = V.dim ∧
      ∀ z ∈ r, -512 ≤ z ∧ z ≤ 511) ∧
    index.length = totalNumEncoding L ∧ (∀ r ∈ index, r.length = V.books.length ∧ ∀ i ∈ r, i < V.size ∧ i < 65536)
    ∧ V.size ≤ 65536 := by
  have hinit : V.initialized = true := by
    by_contra hne
    rw [export_uninit V hV m batch L (by simpa using hne)] at h
    exact absurd h (by simp)
  have hmask : V.maskFits (totalNumEncoding L) = true := by
    by_contra hne
    rw [export_mask V hV m batch L hinit (by simpa using hne)] at h
    exact absurd h (by simp)
  have hsize : V.size ≤ 65536 := by
    by_contra hne
    rw [export_large V hV m batch L hinit hmask (by omega)] at h
    exact absurd h (by simp)
  rw [export_ok V hV m batch L hinit hmask hsize] at h
  simp only [Except.ok.injEq, Prod.mk.injEq] at h
  obtain ⟨rfl, rfl⟩ := h
  refine ⟨by simp [booksOf], booksOf_shape V hV _, by simp, ?_, hsize⟩
  intro r hr
  obtain ⟨v, -, rfl⟩ := List.mem_map.1 hr
  refine ⟨rowOf_length V m batch L v, ?_⟩
  intro i hi
  have := rowOf_lt V hV m batch L v i hi
  omega

/-- **C98** (refusals).  An uninitialised layer, a stale evaluation mask of another length and a codebook beyond
`uint16` are refused; nothing else is. -/
theorem C98_refusals (V : Layer) (hV : V.Wf) (m : Mapping ℚ) (batch L : Nat) :
    (∃ r, exportCodebook V m batch L = .ok r) ↔
      V.initialized = true ∧ (∀ mask, V.mask = some mask → mask.length = totalNumEncoding L) ∧ V.size ≤ 65536 := by
  constructor
  · rintro ⟨⟨books, index⟩, h⟩
    refine ⟨?_, ?_, (C98_types V hV m batch L books index h).2.2.2.2⟩
    · by_contra hne
      rw [export_uninit V hV m batch L (by simpa using hne)] at h
      exact absurd h (by simp)
    · intro mask hmk
      by_contra hne
      have hf : V.maskFits (totalNumEncoding L) = false := by
        unfold Layer.maskFits; rw [hmk]; simpa using hne
      cases hi : V.initialized with
      | false =>
        rw [export_uninit V hV m batch L hi] at h
        exact absurd h (by simp)
      | true =>
        rw [export_mask V hV m batch L hi hf] at h
        exact absurd h (by simp)
  · rintro ⟨h1, h2, h3⟩
    refine ⟨_, export_ok V hV m batch L h1 ?_ h3⟩
    unfold Layer.maskFits
    cases hmk : V.mask with
    | none => rfl
    | some mask => simpa using h2 mask hmk

end Verif.VqExport
