import Verif.Rng.Lemmas

/-! Equivalence of the optimised draw routines with the scalar API. -/
namespace Verif.Rng

theorem packU32_four : packU32 4 = some (leBytes 4 4) := by simp [packU32]
theorem packU32_three : packU32 3 = some (leBytes 4 3) := by simp [packU32]

theorem tlv_counter {c : Nat} (hc : c < 2 ^ 63) : tlv (.int c) = some (2 :: packI64 c) := by
  simp only [tlv]; rw [if_pos]; omega

theorem payload_eq_base {c : Nat} (hc : c < 2 ^ 63) (seed : Int) (domain : String) (key : Val) :
    payload seed domain key c = (counterRngBase seed domain key).map (· ++ packI64 c) := by
  unfold payload counterRngBase identity
  rw [if_pos hc]
  cases hd : tlv (.str domain) <;> cases hs : tlv (.int seed) <;> cases hk : tlv key <;>
    simp [tlv.eq_6, tlvs, packU32_four, hd, hs, hk, tlv_counter hc]

theorem rngU64_eq_base {c : Nat} (hc : c < 2 ^ 63) (H : Digest) (seed : Int) (domain : String) (key : Val) :
    rngU64 H seed domain key c = (counterRngBase seed domain key).map fun b => (H (b ++ packI64 c)).toNat := by
  rw [rngU64, payload_eq_base hc]
  cases counterRngBase seed domain key <;> simp

theorem rejectLoop_none (n fuel c : Nat) : rejectLoop (fun _ => none) n fuel c = none := by
  cases fuel <;> simp [rejectLoop]

theorem boundedDraw_none (n c : Nat) : boundedDraw (fun _ => none) n c = none := by
  unfold boundedDraw; split <;> simp [rejectLoop_none]

theorem uniformBelow_eq_fromBase (H : Digest) (n : Nat) (seed : Int) (domain : String) (key : Val) (c : Nat) :
    uniformBelow H n seed domain key c
      = (counterRngBase seed domain key).bind fun b => uniformBelowFromBase H n b c := by
  unfold uniformBelow uniformBelowFromBase
  rw [boundedDraw_congr _ _ n c (fun d hd => rngU64_eq_base hd H seed domain key)]
  cases counterRngBase seed domain key with
  | none => simpa using boundedDraw_none n c
  | some b =>
    simp only [Option.map_some, Option.bind_some]
    exact boundedDraw_congr _ _ n c (fun d hd => by rw [if_pos hd])

/-! ### Processed sample keys -/

theorem packTagged_eq_tlv (i : Int) : packTagged i = tlv (.int i) := by simp [packTagged, tlv]

/-- The per-key base bytes followed by the suffix are exactly the scalar hash input. -/
theorem processed_payload {c : Nat} (hc : c < 2 ^ 63) (seed : Int) (domain : String) (epoch : Int)
    (k : SampleKey) (occ : Int) (pre : List UInt8) (hpre : processedPrefix seed domain epoch = some pre)
    (hadr : k.address.length = 1 ∨ k.address.length = 2) :
    payload seed domain (sampleRngKey epoch k occ) c
      = (processedBase pre k).bind fun b => (processedSuffix k.address occ c).map (b ++ ·) := by
  unfold payload identity sampleRngKey SampleKey.val
  rw [if_pos hc]
  unfold processedPrefix at hpre
  simp only [packU32_four, packU32_three, Option.bind_eq_bind, Option.bind_some,
    Option.bind_eq_some_iff, Option.some.injEq] at hpre
  obtain ⟨d, hd, s, hs, e, he, rfl⟩ := hpre
  unfold processedBase
  obtain ⟨ns, dig, kind, adr⟩ := k
  simp only at hadr ⊢
  rcases hadr with h1 | h2
  · obtain ⟨a, rfl⟩ := List.length_eq_one_iff.mp h1
    have p1 : packU32 1 = some (leBytes 4 1) := by simp [packU32]
    simp only [tlv.eq_6, tlvs, processedSuffix, packTagged_eq_tlv, tlv_counter hc, List.map_cons, List.map_nil,
      List.length_cons, List.length_nil, hd, hs, he]
    cases hns : packU32 (utf8 ns).length <;> cases hdg : packU32 dig.length <;>
      cases hkd : packU32 (utf8 kind).length <;> cases ha : tlv (.int a) <;> cases ho : tlv (.int occ) <;>
      simp [tlv.eq_4, tlv.eq_5, hns, hdg, hkd, packU32_four, packU32_three, p1]
  · obtain ⟨a, b, rfl⟩ := List.length_eq_two.mp h2
    have p2 : packU32 2 = some (leBytes 4 2) := by simp [packU32]
    simp only [tlv.eq_6, tlvs, processedSuffix, packTagged_eq_tlv, tlv_counter hc, List.map_cons, List.map_nil,
      List.length_cons, List.length_nil, hd, hs, he]
    cases hns : packU32 (utf8 ns).length <;> cases hdg : packU32 dig.length <;>
      cases hkd : packU32 (utf8 kind).length <;> cases ha : tlv (.int a) <;> cases hb : tlv (.int b) <;>
      cases ho : tlv (.int occ) <;>
      simp [tlv.eq_4, tlv.eq_5, hns, hdg, hkd, packU32_four, packU32_three, p2]

theorem processedBase_congr (pre : List UInt8) (k k' : SampleKey) (h : k.baseKey = k'.baseKey) :
    processedBase pre k = processedBase pre k' := by
  simp only [SampleKey.baseKey, Prod.mk.injEq] at h
  obtain ⟨h1, h2, h3, h4⟩ := h
  simp only [processedBase, h1, h2, h3, h4]

/-- One element of the specification: an independent scalar draw at counter 0. -/
def scalarKeyDraw (H : Digest) (n : Nat) (seed : Int) (domain : String) (epoch occ : Int) (k : SampleKey) :
    Option Nat :=
  if k.address.length = 1 ∨ k.address.length = 2 then
    (uniformBelow H n seed domain (sampleRngKey epoch k occ) 0).map Prod.fst
  else none

theorem processedLoop_eq (H : Digest) (n : Nat) (seed : Int) (domain : String) (epoch occ : Int)
    (pre : List UInt8) (hpre : processedPrefix seed domain epoch = some pre) (keys : List SampleKey) :
    ∀ prev, (∀ bk b, prev = some (bk, b) → ∃ k : SampleKey, k.baseKey = bk ∧ processedBase pre k = some b) →
      processedLoop H n pre occ keys prev = keys.mapM (scalarKeyDraw H n seed domain epoch occ) := by
  induction keys with
  | nil => intro prev _; simp [processedLoop]
  | cons k ks ih =>
    intro prev hprev
    rw [processedLoop, List.mapM_cons]
    by_cases hadr : k.address.length = 1 ∨ k.address.length = 2
    · rw [if_neg (by omega)]
      have hbase : chooseBase pre k prev = processedBase pre k := by
        unfold chooseBase
        cases prev with
        | none => rfl
        | some x =>
          obtain ⟨bk, b⟩ := x
          simp only
          split
          · rename_i hbk
            obtain ⟨k', hk', hb⟩ := hprev bk b rfl
            rw [← hb]
            exact processedBase_congr _ _ _ (by rw [hk', hbk])
          · rfl
      rw [hbase]
      simp only [scalarKeyDraw, if_pos hadr]
      have key : ∀ b, processedBase pre k = some b →
          boundedDraw (fun c => (processedSuffix k.address occ c).map fun s => (H (b ++ s)).toNat) n 0
            = uniformBelow H n seed domain (sampleRngKey epoch k occ) 0 := by
        intro b hb
        refine boundedDraw_congr _ _ n 0 (fun c hc => ?_)
        rw [rngU64, processed_payload hc seed domain epoch k occ pre hpre hadr, hb]
        cases processedSuffix k.address occ c <;> simp
      cases hb : processedBase pre k with
      | none =>
        have : uniformBelow H n seed domain (sampleRngKey epoch k occ) 0 = none := by
          rw [← boundedDraw_none n 0, uniformBelow]
          refine boundedDraw_congr _ _ n 0 (fun c hc => ?_)
          rw [rngU64, processed_payload hc seed domain epoch k occ pre hpre hadr, hb]; simp
        simp [this]
      | some b =>
        simp only [Option.bind_eq_bind, Option.bind_some, key b hb]
        rw [ih (some (k.baseKey, b)) (by
          intro bk b' h; simp only [Option.some.injEq, Prod.mk.injEq] at h
          exact ⟨k, h.1, by rw [hb, h.2]⟩)]
        cases uniformBelow H n seed domain (sampleRngKey epoch k occ) 0 <;> simp <;> rfl
    · rw [if_pos (by omega)]
      simp [scalarKeyDraw, hadr]

theorem processedPrefix_isSome (seed : Int) (domain : String) (epoch : Int)
    (hseed : -(2 ^ 63) ≤ seed ∧ seed < 2 ^ 63) (hep : -(2 ^ 63) ≤ epoch ∧ epoch < 2 ^ 63)
    (hdom : (utf8 domain).length < 2 ^ 32) : ∃ pre, processedPrefix seed domain epoch = some pre := by
  unfold processedPrefix
  simp only [tlv, packU32_four, packU32_three, packU32, if_pos hseed, if_pos hep, if_pos hdom,
    Option.bind_eq_bind, Option.bind_some]
  exact ⟨_, rfl⟩

/-! ### SplitMix v2: grouping and scattering -/

abbrev BaseKey := String × List UInt8 × String × Nat

/-- Value of one entry `(base_key, cycle, row)`. -/
def entryValue (H : Digest) (seed : Int) (domain : String) (epoch occ : Int) (mask : UInt64)
    (bk : BaseKey) (c r : Int) : Option UInt64 := do
  let base ← groupBase H seed domain epoch bk occ
  groupValue base mask c r

def scatterFlat (val : BaseKey → Int → Int → Option UInt64) :
    List (BaseKey × Nat × Int × Int) → List UInt64 → Option (List UInt64)
  | [], out => some out
  | (bk, p, c, r) :: es, out => do
    let v ← val bk c r
    scatterFlat val es (out.set p v)

def flat (gs : List (BaseKey × List (Nat × Int × Int))) : List (BaseKey × Nat × Int × Int) :=
  gs.flatMap fun g => g.2.map fun e => (g.1, e)

theorem scatterFlat_append (val : BaseKey → Int → Int → Option UInt64) (xs ys : List (BaseKey × Nat × Int × Int))
    (out : List UInt64) :
    scatterFlat val (xs ++ ys) out = (scatterFlat val xs out).bind (scatterFlat val ys) := by
  induction xs generalizing out with
  | nil => simp [scatterFlat]
  | cons x xs ih =>
    obtain ⟨bk, p, c, r⟩ := x
    simp only [List.cons_append, scatterFlat, Option.bind_eq_bind]
    cases val bk c r <;> simp [ih]

theorem scatterFlat_perm (val : BaseKey → Int → Int → Option UInt64) {xs ys : List (BaseKey × Nat × Int × Int)}
    (h : xs.Perm ys) (hn : (xs.map (·.2.1)).Nodup) (out : List UInt64) :
    scatterFlat val xs out = scatterFlat val ys out := by
  induction h generalizing out with
  | nil => rfl
  | cons x _ ih =>
    obtain ⟨bk, p, c, r⟩ := x
    simp only [scatterFlat, Option.bind_eq_bind]
    simp only [List.map_cons, List.nodup_cons] at hn
    cases val bk c r <;> simp [ih hn.2]
  | swap x y l =>
    obtain ⟨bk, p, c, r⟩ := x
    obtain ⟨bk', p', c', r'⟩ := y
    simp only [List.map_cons, List.nodup_cons, List.mem_cons, not_or] at hn
    simp only [scatterFlat, Option.bind_eq_bind]
    cases val bk c r <;> cases val bk' c' r' <;> simp
    rw [List.set_comm _ _ hn.1.1]
  | trans h1 _ ih1 ih2 => rw [ih1 hn, ih2 ((h1.map _).nodup_iff.mp hn)]

theorem scatterGroup_eq (base mask : UInt64) (H : Digest) (seed : Int) (domain : String) (epoch occ : Int)
    (bk : BaseKey) (hb : groupBase H seed domain epoch bk occ = some base) (es : List (Nat × Int × Int))
    (out : List UInt64) :
    scatterGroup base mask es out
      = scatterFlat (entryValue H seed domain epoch occ mask) (es.map fun e => (bk, e)) out := by
  induction es generalizing out with
  | nil => simp [scatterGroup, scatterFlat]
  | cons e es ih =>
    obtain ⟨p, c, r⟩ := e
    simp only [scatterGroup, scatterFlat, List.map_cons, entryValue, hb, Option.bind_eq_bind, Option.bind_some]
    cases groupValue base mask c r
    · simp
    · simp only [Option.bind_some]; rw [ih]

theorem scatterGroups_eq (H : Digest) (seed : Int) (domain : String) (epoch occ : Int) (mask : UInt64)
    (gs : List (BaseKey × List (Nat × Int × Int))) (hne : ∀ g ∈ gs, g.2 ≠ []) (out : List UInt64) :
    scatterGroups H seed domain epoch occ mask gs out
      = scatterFlat (entryValue H seed domain epoch occ mask) (flat gs) out := by
  induction gs generalizing out with
  | nil => simp [scatterGroups, flat, scatterFlat]
  | cons g gs ih =>
    obtain ⟨bk, es⟩ := g
    rw [scatterGroups]
    have : flat ((bk, es) :: gs) = es.map (fun e => (bk, e)) ++ flat gs := by simp [flat]
    rw [this, scatterFlat_append]
    cases hb : groupBase H seed domain epoch bk occ with
    | none =>
      have : es ≠ [] := hne (bk, es) (by simp)
      cases es with
      | nil => exact absurd rfl this
      | cons e es => obtain ⟨p, c, r⟩ := e; simp [scatterFlat, entryValue, hb]
    | some base =>
      simp only [Option.bind_eq_bind, Option.bind_some]
      rw [scatterGroup_eq base mask H seed domain epoch occ bk hb]
      congr 1
      funext out'
      exact ih (fun g hg => hne g (List.mem_cons_of_mem _ hg)) out'

theorem addToGroup_flat (bk : BaseKey) (x : Nat × Int × Int) (gs : List (BaseKey × List (Nat × Int × Int))) :
    (flat (addToGroup bk x gs)).Perm (flat gs ++ [(bk, x)]) := by
  induction gs with
  | nil => simp [addToGroup, flat]
  | cons g gs ih =>
    obtain ⟨k', xs⟩ := g
    rw [addToGroup]
    split
    · rename_i h; subst h
      simp only [flat, List.flatMap_cons, List.map_append, List.map_cons, List.map_nil, List.append_assoc]
      exact List.Perm.append_left _ (List.perm_append_comm)
    · simp only [flat, List.flatMap_cons, List.append_assoc]
      exact List.Perm.append_left _ ih

theorem addToGroup_ne (bk : BaseKey) (x : Nat × Int × Int) (gs : List (BaseKey × List (Nat × Int × Int)))
    (h : ∀ g ∈ gs, g.2 ≠ []) : ∀ g ∈ addToGroup bk x gs, g.2 ≠ [] := by
  induction gs with
  | nil => simp [addToGroup]
  | cons g gs ih =>
    obtain ⟨k', xs⟩ := g
    rw [addToGroup]
    split
    · intro g hg
      rcases List.mem_cons.mp hg with rfl | hg
      · simp
      · exact h g (List.mem_cons_of_mem _ hg)
    · intro g hg
      rcases List.mem_cons.mp hg with rfl | hg
      · exact h _ (by simp)
      · exact ih (fun g hg => h g (List.mem_cons_of_mem _ hg)) g hg

/-- The entries in key order. -/
def entries : Nat → List SampleKey → Option (List (BaseKey × Nat × Int × Int))
  | _, [] => some []
  | pos, k :: ks => do
    let (c, r) ← cycleRow k.address
    let rest ← entries (pos + 1) ks
    some ((k.baseKey, pos, c, r) :: rest)

theorem groupKeys_flat (keys : List SampleKey) : ∀ pos gs, (∀ g ∈ gs, g.2 ≠ []) →
    (∀ gs', groupKeys pos keys gs = some gs' → (∀ g ∈ gs', g.2 ≠ []) ∧
      ∃ es, entries pos keys = some es ∧ (flat gs').Perm (flat gs ++ es)) ∧
    (groupKeys pos keys gs = none → entries pos keys = none) := by
  induction keys with
  | nil => intro pos gs h; exact ⟨fun gs' hg => by
      simp only [groupKeys, Option.some.injEq] at hg; subst hg; exact ⟨h, [], rfl, by simp⟩, by simp [groupKeys]⟩
  | cons k ks ih =>
    intro pos gs h
    simp only [groupKeys, entries, Option.bind_eq_bind]
    cases hcr : cycleRow k.address with
    | none => simp
    | some cr =>
      obtain ⟨c, r⟩ := cr
      simp only [Option.bind_some]
      obtain ⟨h1, h2⟩ := ih (pos + 1) (addToGroup k.baseKey (pos, c, r) gs) (addToGroup_ne _ _ _ h)
      constructor
      · intro gs' hg
        obtain ⟨h3, es, h4, h5⟩ := h1 gs' hg
        refine ⟨h3, (k.baseKey, pos, c, r) :: es, by simp [h4], ?_⟩
        refine h5.trans ?_
        have := (addToGroup_flat k.baseKey (pos, c, r) gs).append_right es
        simpa using this
      · intro hg; simp [h2 hg]

theorem entries_pos (keys : List SampleKey) : ∀ pos es, entries pos keys = some es →
    es.map (·.2.1) = List.range' pos keys.length := by
  induction keys with
  | nil => intro pos es h; simp [entries] at h; simp [h]
  | cons k ks ih =>
    intro pos es h
    simp only [entries, Option.bind_eq_bind, Option.bind_eq_some_iff, Option.some.injEq] at h
    obtain ⟨⟨c, r⟩, _, es', h', rfl⟩ := h
    simp [ih _ _ h', List.range'_succ]

/-- Specification of one position: computed from that position's own key. -/
def keyValue (val : BaseKey → Int → Int → Option UInt64) (k : SampleKey) : Option UInt64 := do
  let (c, r) ← cycleRow k.address
  val k.baseKey c r

theorem scatterFlat_entries (val : BaseKey → Int → Int → Option UInt64) (keys : List SampleKey) :
    ∀ pos (done : List UInt64) (z : List UInt64), done.length = pos → z.length = keys.length →
      (entries pos keys).bind (fun es => scatterFlat val es (done ++ z))
        = (keys.mapM (keyValue val)).map (done ++ ·) := by
  induction keys with
  | nil => intro pos done z _ hz; simp at hz; simp [entries, scatterFlat, hz]
  | cons k ks ih =>
    intro pos done z hd hz
    obtain ⟨z0, z, rfl⟩ : ∃ z0 z', z = z0 :: z' := by
      cases z with
      | nil => simp at hz
      | cons a b => exact ⟨a, b, rfl⟩
    simp only [entries, List.mapM_cons, Option.bind_eq_bind, keyValue]
    cases hcr : cycleRow k.address with
    | none => simp
    | some cr =>
      obtain ⟨c, r⟩ := cr
      simp only [Option.bind_some]
      cases hv : val k.baseKey c r with
      | none =>
        cases entries (pos + 1) ks <;> simp [scatterFlat, hv]
      | some v =>
        have h := ih (pos + 1) (done ++ [v]) z (by simp [hd]) (by simpa using hz)
        have hset : (done ++ z0 :: z).set pos v = done ++ [v] ++ z := by
          rw [List.set_append_right _ _ (by omega)]; simp [hd]
        cases he : entries (pos + 1) ks with
        | none =>
          simp only [he, Option.bind_none] at h
          have h' : ks.mapM (keyValue val) = none := by
            cases hm : ks.mapM (keyValue val)
            · rfl
            · rw [hm] at h; simp at h
          simp [h']
        | some es =>
          simp only [he, Option.bind_some] at h
          simp only [Option.bind_some, scatterFlat, hv, Option.bind_eq_bind, hset, h]
          cases ks.mapM (keyValue val) <;> simp

theorem scatter_eq_mapM (H : Digest) (seed : Int) (domain : String) (epoch occ : Int) (mask : UInt64)
    (keys : List SampleKey) :
    ((groupKeys 0 keys []).bind fun gs => scatterGroups H seed domain epoch occ mask gs
        (List.replicate keys.length 0))
      = keys.mapM (keyValue (entryValue H seed domain epoch occ mask)) := by
  obtain ⟨h1, h2⟩ := groupKeys_flat keys 0 [] (by simp)
  have h3 := scatterFlat_entries (entryValue H seed domain epoch occ mask) keys 0 []
    (List.replicate keys.length 0) rfl (by simp)
  simp only [List.nil_append, Option.map_id'] at h3
  rw [← h3]
  cases hg : groupKeys 0 keys [] with
  | none => simp [h2 hg]
  | some gs =>
    obtain ⟨hne, es, hes, hp⟩ := h1 gs hg
    simp only [flat, List.flatMap_nil, List.nil_append] at hp
    simp only [hes, Option.bind_some]
    rw [scatterGroups_eq _ _ _ _ _ _ _ hne]
    refine scatterFlat_perm _ hp ?_ _
    refine ((hp.map _).nodup_iff).mpr ?_
    rw [entries_pos keys 0 es hes]
    exact List.nodup_range'

end Verif.Rng
