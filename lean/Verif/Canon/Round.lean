import Verif.Canon.Lemmas

/-! `json.loads (json.dumps j)` returns `j` with sorted objects, for every `j` without floats. -/

namespace Verif.Canon

/-- JSON values the encoder prints: no float literals, distinct keys in every object. -/
inductive Good : J → Prop
  | null : Good .null
  | bool (b) : Good (.bool b)
  | int (n) : Good (.int n)
  | str (s) : Good (.str s)
  | arr (xs) : (∀ x ∈ xs, Good x) → Good (.arr xs)
  | obj (kvs) : (kvs.map Prod.fst).Nodup → (∀ kv ∈ kvs, Good kv.2) → Good (.obj kvs)

mutual
/-- every object sorted by key -/
def sortJ : J → J
  | .null => .null
  | .bool b => .bool b
  | .int n => .int n
  | .float b => .float b
  | .str s => .str s
  | .arr xs => .arr (sortJList xs)
  | .obj kvs => .obj (sortKeys (sortJEntries kvs))

def sortJList : List J → List J
  | [] => []
  | x :: r => sortJ x :: sortJList r

def sortJEntries : List (Str × J) → List (Str × J)
  | [] => []
  | (k, v) :: r => (k, sortJ v) :: sortJEntries r
end

theorem sortJList_eq (xs : List J) : sortJList xs = xs.map sortJ := by
  induction xs with
  | nil => rfl
  | cons x r ih => rw [sortJList, ih]; rfl

theorem sortJEntries_eq (m : List (Str × J)) :
    sortJEntries m = m.map (fun kv => (kv.1, sortJ kv.2)) := by
  induction m with
  | nil => rfl
  | cons x r ih => obtain ⟨k, v⟩ := x; rw [sortJEntries, ih]; rfl

theorem dumpsEntries_eq (lib : PyLib) (m : List (Str × J)) :
    dumpsEntries lib m = m.map (fun kv => (kv.1, dumps lib kv.2)) := by
  induction m with
  | nil => rfl
  | cons x r ih => obtain ⟨k, v⟩ := x; rw [dumpsEntries, ih]; rfl

theorem sortJ_arr (xs : List J) : sortJ (.arr xs) = .arr (xs.map sortJ) := by
  rw [sortJ, sortJList_eq]

theorem sortJ_obj (m : List (Str × J)) :
    sortJ (.obj m) = .obj ((sortKeys m).map (fun kv => (kv.1, sortJ kv.2))) := by
  rw [sortJ, sortJEntries_eq, sortKeys_map (fun kv => (kv.1, sortJ kv.2)) (fun _ => rfl)]

theorem dumps_obj (lib : PyLib) (m : List (Str × J)) :
    dumps lib (.obj m) =
      '{' :: (joinEntries ((sortKeys m).map (fun kv => (kv.1, dumps lib kv.2))) ++ ['}']) := by
  rw [dumps, dumpsEntries_eq, sortKeys_map (fun kv => (kv.1, dumps lib kv.2)) (fun _ => rfl)]

/-- first character of a printed value -/
def Opens (s : Str) : Prop := ∃ c t, s = c :: t ∧ isWs c = false ∧ c ≠ ']' ∧ c ≠ '}'

theorem dumps_opens (lib : PyLib) {j : J} (h : Good j) : Opens (dumps lib j) := by
  cases h with
  | null => exact ⟨'n', _, rfl, by decide, by decide, by decide⟩
  | bool b => cases b <;> exact ⟨_, _, rfl, by decide, by decide, by decide⟩
  | int n =>
    rw [dumps]
    obtain ⟨c, t, e, h⟩ := printInt_head n
    refine ⟨c, t, e, ?_⟩
    rcases h with h | ⟨rfl, -⟩
    · refine ⟨?_, ?_, ?_⟩
      · cases hw : isWs c
        · rfl
        · exfalso
          simp only [isWs, Bool.or_eq_true, decide_eq_true_eq] at hw
          rcases hw with ((rfl | rfl) | rfl) | rfl <;> revert h <;> decide
      · rintro rfl; revert h; decide
      · rintro rfl; revert h; decide
    · exact ⟨by decide, by decide, by decide⟩
  | str s => exact ⟨'"', _, by rw [dumps]; rfl, by decide, by decide, by decide⟩
  | arr xs _ => exact ⟨'[', _, by rw [dumps], by decide, by decide, by decide⟩
  | obj m _ _ => exact ⟨'{', _, by rw [dumps], by decide, by decide, by decide⟩

theorem skipWs_opens {s : Str} (h : Opens s) (r : Str) : skipWs (s ++ r) = s ++ r := by
  obtain ⟨c, t, rfl, hw, -, -⟩ := h
  rw [List.cons_append, skipWs, hw]; rfl

theorem skipWs_cons (c : Char) (r : Str) (h : isWs c = false) : skipWs (c :: r) = c :: r := by
  rw [skipWs, h]; rfl

theorem opens_length {s : Str} (h : Opens s) : 1 ≤ s.length := by
  obtain ⟨c, t, rfl, -⟩ := h; simp

theorem stop_cons (c : Char) (r : Str) (h : c = ',' ∨ c = ']' ∨ c = '}') : Stop (c :: r) :=
  Or.inr ⟨c, r, rfl, h⟩

/-- what the main induction provides for a value -/
def Scans (lib : PyLib) (j : J) : Prop :=
  ∀ fuel rest, (dumps lib j).length ≤ fuel → Stop rest →
    scanVal lib fuel (dumps lib j ++ rest) = some (sortJ j, rest)

theorem scanItems_dumps (lib : PyLib) : ∀ (xs : List J), xs ≠ [] →
    (∀ x ∈ xs, Scans lib x ∧ Good x) → ∀ fuel rest, (dumpsList lib xs).length + 1 ≤ fuel →
    scanItems lib fuel (dumpsList lib xs ++ ']' :: rest) = some (xs.map sortJ, rest)
  | [], h, _, _, _, _ => absurd rfl h
  | [x], _, hx, fuel + 1, rest, hf => by
      have h := (hx x (List.mem_cons_self ..)).1 fuel (']' :: rest)
        (by rw [dumpsList] at hf; omega) (stop_cons _ _ (by simp))
      rw [dumpsList, scanItems, h]
      simp only [skipWs_cons ']' rest (by decide)]
      rfl
  | x :: y :: xs, _, hx, fuel + 1, rest, hf => by
      rw [dumpsList] at hf ⊢
      simp only [List.length_append, List.length_cons] at hf
      have hxl := opens_length (dumps_opens lib (hx x (List.mem_cons_self ..)).2)
      have h := (hx x (List.mem_cons_self ..)).1 fuel (',' :: (dumpsList lib (y :: xs) ++ ']' :: rest))
        (by omega) (stop_cons _ _ (by simp))
      have ih := scanItems_dumps lib (y :: xs) (by simp)
        (fun z hz => hx z (List.mem_cons_of_mem _ hz)) fuel rest (by omega)
      have hop : Opens (dumps lib y) := dumps_opens lib (hx y (by simp)).2
      have hop' : Opens (dumpsList lib (y :: xs)) := by
        obtain ⟨c, t, e, hh⟩ := hop
        cases xs with
        | nil => exact ⟨c, t, by rw [dumpsList, e], hh⟩
        | cons z zs => exact ⟨c, _, by rw [dumpsList, e]; rfl, hh⟩
      rw [List.append_assoc, List.cons_append, scanItems, h]
      simp only [skipWs_cons ',' _ (by decide), skipWs_opens hop', ih]
      rfl

theorem dictSet_fresh {α : Type} (k : Str) (v : α) : ∀ acc : List (Str × α),
    k ∉ acc.map Prod.fst → dictSet k v acc = acc ++ [(k, v)]
  | [], _ => rfl
  | (k', v') :: r, h => by
      simp only [List.map_cons, List.mem_cons, not_or] at h
      rw [dictSet, if_neg (fun e => h.1 e.symm), dictSet_fresh k v r h.2]
      rfl

theorem quote_append (k r : Str) : quote k ++ r = '"' :: (k.flatMap escapeChar ++ '"' :: r) := by
  simp [quote]

theorem quote_length (k : Str) : 2 ≤ (quote k).length := by simp [quote]

theorem joinEntries_opens (k v : Str) (r : List (Str × Str)) : Opens (joinEntries ((k, v) :: r)) := by
  cases r with
  | nil => exact ⟨'"', _, by rw [joinEntries, quote_append], by decide, by decide, by decide⟩
  | cons q r => exact ⟨'"', _, by rw [joinEntries, quote_append], by decide, by decide, by decide⟩

theorem scanEntries_dumps (lib : PyLib) : ∀ (es : List (Str × J)), es ≠ [] →
    (∀ kv ∈ es, Scans lib kv.2 ∧ Good kv.2) → ∀ fuel acc rest,
    ((acc ++ es).map Prod.fst).Nodup →
    (joinEntries (es.map (fun kv => (kv.1, dumps lib kv.2)))).length + 1 ≤ fuel →
    scanEntries lib fuel acc
        (joinEntries (es.map (fun kv => (kv.1, dumps lib kv.2))) ++ '}' :: rest) =
      some (acc ++ es.map (fun kv => (kv.1, sortJ kv.2)), rest)
  | [], h, _, _, _, _, _, _ => absurd rfl h
  | [(k, v)], _, hx, fuel + 1, acc, rest, hnd, hf => by
      have hk : k ∉ acc.map Prod.fst := by
        rw [List.map_append, List.nodup_append] at hnd
        intro hc; exact hnd.2.2 k hc k (by simp) rfl
      simp only [List.map_cons, List.map_nil, joinEntries, List.length_append, List.length_cons] at hf ⊢
      have hq := quote_length k
      have h := (hx (k, v) (List.mem_cons_self ..)).1 fuel ('}' :: rest)
        (by show (dumps lib v).length ≤ fuel; omega) (stop_cons _ _ (by simp))
      have hop := dumps_opens lib (hx (k, v) (List.mem_cons_self ..)).2
      rw [List.append_assoc, quote_append, scanEntries]
      simp only [scanString_quote, List.cons_append, skipWs_cons ':' _ (by decide),
        skipWs_opens hop, h, skipWs_cons '}' _ (by decide), dictSet_fresh k _ acc hk]
  | (k, v) :: (k2, v2) :: es, _, hx, fuel + 1, acc, rest, hnd, hf => by
      have hk : k ∉ acc.map Prod.fst := by
        rw [List.map_append, List.nodup_append] at hnd
        intro hc; exact hnd.2.2 k hc k (by simp) rfl
      have hq := quote_length k
      have hop := dumps_opens lib (hx (k, v) (List.mem_cons_self ..)).2
      have hj := joinEntries_opens k2 (dumps lib v2) (es.map (fun kv => (kv.1, dumps lib kv.2)))
      simp only [List.map_cons, joinEntries, List.length_append, List.length_cons] at hf ⊢
      have h := (hx (k, v) (List.mem_cons_self ..)).1 fuel
        (',' :: (joinEntries ((k2, dumps lib v2) :: es.map (fun kv => (kv.1, dumps lib kv.2))) ++
          '}' :: rest))
        (by show (dumps lib v).length ≤ fuel; omega) (stop_cons _ _ (by simp))
      have ih := scanEntries_dumps lib ((k2, v2) :: es) (by simp)
        (fun z hz => hx z (List.mem_cons_of_mem _ hz)) fuel (acc ++ [(k, sortJ v)]) rest
        (by simpa using hnd)
        (by simp only [List.map_cons]; omega)
      simp only [List.map_cons] at ih
      rw [List.append_assoc, quote_append, scanEntries]
      simp only [scanString_quote, List.cons_append, List.append_assoc, skipWs_cons ':' _ (by decide),
        skipWs_opens hop, h, skipWs_cons ',' _ (by decide), skipWs_opens hj, dictSet_fresh k _ acc hk, ih,
        List.nil_append]

theorem scans_of_good (lib : PyLib) {j : J} (h : Good j) : Scans lib j := by
  induction h with
  | null =>
    intro fuel rest hf _
    obtain ⟨f, rfl⟩ : ∃ f, fuel = f + 1 := ⟨fuel - 1, by rw [dumps] at hf; simp at hf; omega⟩
    rfl
  | bool b =>
    intro fuel rest hf _
    obtain ⟨f, rfl⟩ : ∃ f, fuel = f + 1 := ⟨fuel - 1, by cases b <;> simp [dumps] at hf <;> omega⟩
    cases b <;> rfl
  | int n =>
    intro fuel rest hf hr
    have hop := opens_length (dumps_opens lib (Good.int n))
    obtain ⟨f, rfl⟩ : ∃ f, fuel = f + 1 := ⟨fuel - 1, by omega⟩
    have h1 := scanNumber_int lib n rest hr
    have h2 := keyword_int lib n rest
    obtain ⟨c, t, e, hc⟩ := printInt_head n
    rw [dumps, sortJ]
    rw [e, List.cons_append] at h1 h2 ⊢
    rw [scanVal]
    have hne : c ≠ '"' ∧ c ≠ '{' ∧ c ≠ '[' := by
      rcases hc with hc | ⟨rfl, -⟩
      · refine ⟨?_, ?_, ?_⟩ <;> rintro rfl <;> revert hc <;> decide
      · decide
    simp only [if_neg hne.1, if_neg hne.2.1, if_neg hne.2.2, h2, h1]
  | str s =>
    intro fuel rest hf _
    obtain ⟨f, rfl⟩ : ∃ f, fuel = f + 1 := ⟨fuel - 1, by rw [dumps] at hf; simp [quote] at hf; omega⟩
    rw [dumps, quote_append, scanVal]
    simp only [if_true, scanString_quote]
    rfl
  | arr xs hg ih =>
    intro fuel rest hf _
    rw [dumps] at hf ⊢
    simp only [List.length_cons, List.length_append] at hf
    obtain ⟨f, rfl⟩ : ∃ f, fuel = f + 1 := ⟨fuel - 1, by omega⟩
    rw [List.cons_append, List.append_assoc, scanVal, sortJ_arr]
    rw [if_neg (by decide), if_neg (by decide), if_pos rfl]
    cases xs with
    | nil => rfl
    | cons x xs =>
      have hop : Opens (dumpsList lib (x :: xs)) := by
        obtain ⟨c, t, e, hh⟩ := dumps_opens lib (hg x (List.mem_cons_self ..))
        cases xs with
        | nil => exact ⟨c, t, by rw [dumpsList, e], hh⟩
        | cons z zs => exact ⟨c, _, by rw [dumpsList, e]; rfl, hh⟩
      have h := scanItems_dumps lib (x :: xs) (by simp) (fun y hy => ⟨ih y hy, hg y hy⟩) f rest
        (by simp only [List.length_nil] at hf; omega)
      rw [skipWs_opens hop]
      obtain ⟨c, t, e, -, hc, -⟩ := hop
      rw [e] at h ⊢
      simp only [List.cons_append, List.singleton_append, List.nil_append] at h ⊢
      split
      · rename_i heq; injection heq with h1 _; exact absurd h1 hc
      · rw [h]; rfl
  | obj m hnd hg ih =>
    intro fuel rest hf _
    rw [dumps_obj] at hf ⊢
    simp only [List.length_cons, List.length_append] at hf
    obtain ⟨f, rfl⟩ : ∃ f, fuel = f + 1 := ⟨fuel - 1, by omega⟩
    rw [List.cons_append, List.append_assoc, scanVal, sortJ_obj]
    rw [if_neg (by decide), if_pos rfl]
    have hmem : ∀ kv ∈ sortKeys m, Scans lib kv.2 ∧ Good kv.2 := by
      intro kv hkv
      have := mem_sortKeys.mp hkv
      exact ⟨ih kv this, hg kv this⟩
    have hnd' : ((sortKeys m).map Prod.fst).Nodup := ((sortKeys_perm m).map _).nodup_iff.mpr hnd
    generalize sortKeys m = es at *
    cases es with
    | nil => rfl
    | cons kv es =>
      obtain ⟨k, v⟩ := kv
      have h := scanEntries_dumps lib ((k, v) :: es) (by simp) hmem f [] rest
        (by simpa using hnd') (by simp only [List.length_nil] at hf; omega)
      have hop := joinEntries_opens k (dumps lib v) (es.map (fun kv => (kv.1, dumps lib kv.2)))
      simp only [List.map_cons, List.cons_append, List.nil_append] at h ⊢
      rw [skipWs_opens hop]
      obtain ⟨c, t, e, -, -, hc⟩ := hop
      rw [e] at h ⊢
      simp only [List.cons_append] at h ⊢
      split
      · rename_i heq; injection heq with h1 _; exact absurd h1 hc
      · rw [h]; rfl

/-- `json.loads(json.dumps(j))` -/
theorem loads_dumps (lib : PyLib) {j : J} (h : Good j) : loads lib (dumps lib j) = some (sortJ j) := by
  have hop := dumps_opens lib h
  have h1 := skipWs_opens hop []
  have h2 := scans_of_good lib h ((dumps lib j).length + 1) [] (by omega) (Or.inl rfl)
  rw [List.append_nil] at h1 h2
  unfold loads
  rw [h1, h2]
  rfl

end Verif.Canon
