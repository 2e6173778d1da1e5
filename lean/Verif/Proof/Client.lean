import Verif.Model.Client

/-! Query codec round trip. -/
namespace Verif.Client

theorem unesc_byte (b : Byte) (r : Bytes) : unescape (escByte b ++ r) = (unescape r).map (b :: ·) := by
  by_cases hu : unreserved b
  · have h1 : ∀ b : Byte, unreserved b → b.val ≠ 37 ∧ b.val ≠ 43 := by decide +kernel
    have := h1 b hu
    rw [escByte, if_pos hu]
    simp only [List.cons_append, List.nil_append]
    rw [unescape.eq_def]
    simp only [this.1, this.2, if_false]
  · by_cases hs : b.val = 32
    · rw [escByte, if_neg hu, if_pos hs]
      simp only [List.cons_append, List.nil_append]
      rw [unescape.eq_def]
      have : b = 32 := Fin.ext hs
      simp [this]
    · rw [escByte, if_neg hu, if_neg hs]
      have h1 : ∀ b : Byte, unhex (hexDigit (b.val / 16)) = some (b.val / 16) ∧ unhex (hexDigit (b.val % 16)) = some (b.val % 16) := by
        decide +kernel
      have h2 : ∀ b : Byte, Fin.ofNat 256 (b.val / 16 * 16 + b.val % 16) = b := by decide +kernel
      simp only [List.cons_append, List.nil_append]
      rw [unescape.eq_def]
      simp only [(h1 b).1, (h1 b).2, h2 b]
      simp

theorem unescape_escape (s : Bytes) : unescape (escape s) = some s := by
  induction s with
  | nil => rfl
  | cons b s ih =>
    rw [escape, List.flatMap_cons, unesc_byte]
    rw [escape] at ih
    rw [ih]; rfl

theorem escape_clean (s : Bytes) : ∀ b ∈ escape s, b ≠ 38 ∧ b ≠ 61 ∧ b ≠ 59 := by
  intro b hb
  rw [escape, List.mem_flatMap] at hb
  obtain ⟨c, -, hc⟩ := hb
  have : ∀ c : Byte, ((escByte c).all fun b => b.val != 38 && b.val != 61 && b.val != 59) = true := by decide +kernel
  have := List.all_eq_true.1 (this c) b hc
  simp only [Bool.and_eq_true, bne_iff_ne] at this
  exact ⟨fun e => this.1.1 (by rw [e]; decide), fun e => this.1.2 (by rw [e]; decide), fun e => this.2 (by rw [e]; decide)⟩

theorem splitAt_ne_nil (sep : Byte) (s : Bytes) : splitAt sep s ≠ [] := by
  cases s with
  | nil => simp [splitAt]
  | cons b s =>
    rw [splitAt]
    split
    · simp
    · split <;> simp

theorem splitAt_free (sep : Byte) (s : Bytes) (h : sep ∉ s) : splitAt sep s = [s] := by
  induction s with
  | nil => rfl
  | cons b s ih =>
    simp only [List.mem_cons, not_or] at h
    rw [splitAt, if_neg (fun e => h.1 e.symm), ih h.2]

theorem splitAt_append (sep : Byte) (s r : Bytes) (h : sep ∉ s) : splitAt sep (s ++ sep :: r) = s :: splitAt sep r := by
  induction s with
  | nil => simp [splitAt]
  | cons b s ih =>
    simp only [List.mem_cons, not_or] at h
    rw [List.cons_append, splitAt, if_neg (fun e => h.1 e.symm), ih h.2]

theorem splitAt_intercalate (sep : Byte) (ps : List Bytes) (hne : ps ≠ []) (h : ∀ p ∈ ps, sep ∉ p) :
    splitAt sep (List.intercalate [sep] ps) = ps := by
  induction ps with
  | nil => exact absurd rfl hne
  | cons p ps ih =>
    cases ps with
    | nil =>
      simp only [List.intercalate, List.intersperse, List.flatten_cons, List.flatten_nil, List.append_nil]
      exact splitAt_free sep p (h p (by simp))
    | cons p' ps =>
      have := ih (by simp) (fun q hq => h q (by simp only [List.mem_cons] at hq ⊢; exact Or.inr hq))
      have e : List.intercalate [sep] (p :: p' :: ps) = p ++ sep :: List.intercalate [sep] (p' :: ps) := by
        simp [List.intercalate, List.intersperse]
      rw [e, splitAt_append sep p _ (h p (by simp)), this]

theorem cut_append (sep : Byte) (k v : Bytes) (h : sep ∉ k) : cut sep (k ++ sep :: v) = (k, v) := by
  have hk : ∀ b ∈ k, (decide (b ≠ sep)) = true := by
    intro b hb
    simp only [decide_eq_true_eq]
    intro e; exact h (e ▸ hb)
  unfold cut
  rw [List.takeWhile_append_of_pos hk, List.dropWhile_append_of_pos hk]
  simp

theorem parsePart_enc (k v : Bytes) : parsePart (escape k ++ (61 : Byte) :: escape v) = some (k, v) := by
  have hk := escape_clean k
  have hv := escape_clean v
  unfold parsePart
  rw [if_neg, if_neg (by simp), cut_append 61 _ _ (fun h => (hk _ h).2.1 rfl)]
  · simp only [unescape_escape]
  · simp only [List.contains_eq_mem, List.mem_append, List.mem_cons, decide_eq_true_eq, not_or]
    exact ⟨fun h => (hk _ h).2.2 rfl, by decide, fun h => (hv _ h).2.2 rfl⟩

theorem parseQuery_encode (q : Values) :
    parseQuery q.encode = q.pairs.foldl (fun (q : Values) e => q.add e.1 e.2) [] := by
  unfold parseQuery Values.encode
  by_cases hp : q.pairs = []
  · rw [hp]; simp [List.intercalate, splitAt, parsePart]
  · rw [splitAt_intercalate]
    · rw [List.filterMap_map]
      congr 1
      rw [List.filterMap_congr (g := some)]
      · simp
      · intro e _
        simp only [Function.comp]
        exact parsePart_enc e.1 e.2
    · simpa using hp
    · intro p hp h
      rw [List.mem_map] at hp
      obtain ⟨e, -, rfl⟩ := hp
      simp only [List.mem_append, List.mem_cons] at h
      rcases h with h | h | h
      · exact (escape_clean _ _ h).1 rfl
      · exact absurd h (by decide)
      · exact (escape_clean _ _ h).1 rfl

theorem get_add (q : Values) (k v k' : Bytes) :
    (q.add k v).get k' = if k = k' then q.get k' ++ [v] else q.get k' := by
  induction q with
  | nil => by_cases h : k = k' <;> simp [Values.add, Values.get, h]
  | cons e q ih =>
    unfold Values.add
    by_cases h : e.1 = k
    · rw [if_pos h]
      by_cases h' : k = k'
      · simp [Values.get, h, h']
      · simp [Values.get, h, h']
    · rw [if_neg h]
      by_cases h' : e.1 = k'
      · have : k ≠ k' := fun e' => h (h'.trans e'.symm)
        simp [Values.get, h', this]
      · have e1 : Values.get (e :: Values.add q k v) k' = Values.get (Values.add q k v) k' := by
          simp [Values.get, h']
        have e2 : Values.get (e :: q) k' = Values.get q k' := by simp [Values.get, h']
        rw [e1, e2, ih]

theorem get_foldl (ps : List (Bytes × Bytes)) (q : Values) (k : Bytes) :
    Values.get (ps.foldl (fun (q : Values) e => q.add e.1 e.2) q) k = q.get k ++ (ps.filter fun e => e.1 = k).map (·.2) := by
  induction ps generalizing q with
  | nil => simp
  | cons e ps ih =>
    rw [List.foldl_cons, ih, get_add]
    by_cases h : e.1 = k
    · rw [if_pos h, List.filter_cons_of_pos (by simpa using h)]; simp
    · rw [if_neg h, List.filter_cons_of_neg (by simpa using h)]

/-- distinct keys -/
def Values.Ok (q : Values) : Prop := (q.map (·.1)).Nodup

theorem mem_add_keys (q : Values) (k v : Bytes) (x : Bytes) :
    x ∈ (q.add k v).map (·.1) ↔ x ∈ q.map (·.1) ∨ x = k := by
  induction q with
  | nil => simp [Values.add]
  | cons e q ih =>
    unfold Values.add
    by_cases h : e.1 = k
    · rw [if_pos h]; simp only [List.map_cons, List.mem_cons]
      constructor
      · intro hx; exact Or.inl hx
      · rintro (hx | hx)
        · exact hx
        · exact Or.inl (hx.trans h.symm)
    · rw [if_neg h]; simp only [List.map_cons, List.mem_cons, ih, or_assoc]

theorem add_ok (q : Values) (k v : Bytes) (h : q.Ok) : (q.add k v).Ok := by
  induction q with
  | nil => simp [Values.add, Values.Ok]
  | cons e q ih =>
    unfold Values.Ok at h ih ⊢
    unfold Values.add
    rw [List.map_cons, List.nodup_cons] at h
    by_cases he : e.1 = k
    · rw [if_pos he, List.map_cons, List.nodup_cons]; exact h
    · rw [if_neg he, List.map_cons, List.nodup_cons]
      refine ⟨?_, ih h.2⟩
      rw [mem_add_keys]
      rintro (hx | hx)
      · exact h.1 hx
      · exact he hx

theorem foldl_ok (ps : List (Bytes × Bytes)) (q : Values) (h : q.Ok) :
    Values.Ok (ps.foldl (fun (q : Values) e => q.add e.1 e.2) q) := by
  induction ps generalizing q with
  | nil => exact h
  | cons e ps ih => exact ih _ (add_ok q _ _ h)

theorem parseQuery_ok (raw : Bytes) : (parseQuery raw).Ok := foldl_ok _ _ (by simp [Values.Ok])

theorem filter_flatMap_pairs (q : Values) (h : q.Ok) (k : Bytes) :
    ((q.flatMap fun e => e.2.map fun v => (e.1, v)).filter fun e => e.1 = k).map (·.2) = q.get k := by
  induction q with
  | nil => rfl
  | cons e q ih =>
    unfold Values.Ok at h ih
    rw [List.map_cons, List.nodup_cons] at h
    rw [List.flatMap_cons, List.filter_append, List.map_append, ih h.2]
    by_cases he : e.1 = k
    · have : Values.get q k = [] := by
        unfold Values.get
        rw [List.find?_eq_none.2]
        intro x hx
        simp only [decide_eq_true_eq]
        intro e'
        exact h.1 (by rw [he, ← e']; exact List.mem_map_of_mem hx)
      rw [this]
      simp [Values.get, he, List.filter_map, Function.comp_def]
    · simp [Values.get, he, List.filter_map, Function.comp_def]

theorem get_perm (q q' : Values) (hp : q.Perm q') (h : q.Ok) (k : Bytes) : q.get k = q'.get k := by
  have h' : q'.Ok := (List.Perm.nodup_iff (hp.map (fun e : Bytes × List Bytes => e.1))).1 h
  have key : ∀ (r : Values), r.Ok → ∀ e ∈ r, r.get e.1 = e.2 := by
    intro r
    induction r with
    | nil => intro _ e he; cases he
    | cons a r ih =>
      intro hr e he
      unfold Values.Ok at hr ih
      rw [List.map_cons, List.nodup_cons] at hr
      rcases List.mem_cons.1 he with e1 | e1
      · rw [e1]; simp [Values.get]
      · have : a.1 ≠ e.1 := fun e2 => hr.1 (by rw [e2]; exact List.mem_map_of_mem e1)
        have e3 : Values.get (a :: r) e.1 = Values.get r e.1 := by simp [Values.get, this]
        rw [e3]; exact ih hr.2 e e1
  by_cases hk : ∃ e ∈ q, e.1 = k
  · obtain ⟨e, he, rfl⟩ := hk
    rw [key q h e he, key q' h' e (hp.mem_iff.1 he)]
  · have n1 : q.get k = [] := by
      unfold Values.get
      rw [List.find?_eq_none.2]
      intro x hx; simp only [decide_eq_true_eq]; exact fun e => hk ⟨x, hx, e⟩
    have n2 : q'.get k = [] := by
      unfold Values.get
      rw [List.find?_eq_none.2]
      intro x hx; simp only [decide_eq_true_eq]; exact fun e => hk ⟨x, hp.mem_iff.2 hx, e⟩
    rw [n1, n2]

theorem get_parse_encode (q : Values) (h : q.Ok) (k : Bytes) : (parseQuery q.encode).get k = q.get k := by
  rw [parseQuery_encode, get_foldl]
  have hp : (q.mergeSort fun a b => !decide (b.1 < a.1)).Perm q := List.mergeSort_perm _ _
  have hok : Values.Ok (q.mergeSort fun a b => !decide (b.1 < a.1)) := (List.Perm.nodup_iff (hp.map (fun e : Bytes × List Bytes => e.1))).2 h
  unfold Values.pairs
  rw [filter_flatMap_pairs _ hok, get_perm _ _ hp hok]
  rfl

end Verif.Client
