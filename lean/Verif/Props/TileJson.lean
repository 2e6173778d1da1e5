import Verif.Model.TileJson

/-!
# C58: struct tags to fields and properties
-/
namespace Verif.TileJson

variable {α : Type}

/-- Specification: the type a kind has in a TileJSON field list. -/
def IsNumber (k : Kind) : Prop :=
  k = .int ∨ k = .int8 ∨ k = .int16 ∨ k = .int32 ∨ k = .int64 ∨ k = .uint ∨ k = .uint8 ∨ k = .uint16 ∨ k = .uint32 ∨
    k = .uint64 ∨ k = .float32 ∨ k = .float64

/-- C58: numbers, strings and booleans have their type, every other kind has none. -/
theorem C58_types (k : Kind) :
    (fieldType k = some .number ↔ IsNumber k) ∧ (fieldType k = some .string ↔ k = .string) ∧
    (fieldType k = some .boolean ↔ k = .bool) ∧ (fieldType k = none ↔ ¬ IsNumber k ∧ k ≠ .string ∧ k ≠ .bool) := by
  unfold IsNumber
  cases k <;> simp [fieldType]

theorem fields_fold (fs : List (Field α)) (n : String) (t : FieldType) :
    fs.foldl fieldStep Map.empty n = some t ↔ ∃ pre f post, fs = pre ++ f :: post ∧ f.tag = some n ∧ fieldType f.kind = some t ∧
      ∀ g ∈ post, g.tag = some n → fieldType g.kind = none := by
  have gen : ∀ (rs : List (Field α)), (rs.reverse.foldl fieldStep Map.empty n = some t ↔ ∃ pre f post, rs.reverse = pre ++ f :: post ∧
      f.tag = some n ∧ fieldType f.kind = some t ∧ ∀ g ∈ post, g.tag = some n → fieldType g.kind = none) := by
    intro rs
    induction rs with
    | nil =>
      constructor
      · intro h; simp [Map.empty] at h
      · rintro ⟨pre, f, post, h, -⟩; simp at h
    | cons f rs ih =>
      rw [List.reverse_cons, List.foldl_append]
      simp only [List.foldl_cons, List.foldl_nil]
      have split : ∀ pre (g : Field α) post, rs.reverse ++ [f] = pre ++ g :: post →
          (pre = rs.reverse ∧ g = f ∧ post = []) ∨ ∃ post', post = post' ++ [f] ∧ rs.reverse = pre ++ g :: post' := by
        intro pre g post h
        rcases List.eq_nil_or_concat post with e | ⟨post', x, e⟩
        · subst e
          obtain ⟨h1, h2⟩ := List.append_inj' h rfl
          exact Or.inl ⟨h1.symm, by simpa using h2.symm, rfl⟩
        · right
          subst e
          have h' : rs.reverse ++ [f] = (pre ++ g :: post') ++ [x] := by simpa using h
          obtain ⟨h1, h2⟩ := List.append_inj' h' rfl
          exact ⟨post', by simpa using h2.symm, h1⟩
      by_cases hf : f.tag = some n ∧ fieldType f.kind ≠ none
      · obtain ⟨u, hu⟩ := Option.ne_none_iff_exists'.1 hf.2
        have e : fieldStep (rs.reverse.foldl fieldStep Map.empty) f n = some u := by
          unfold fieldStep
          simp only [hf.1, hu, Map.set, if_true]
        rw [e]
        constructor
        · intro h
          refine ⟨rs.reverse, f, [], rfl, hf.1, by rw [hu, h], by simp⟩
        · rintro ⟨pre, g, post, h, h1, h2, h3⟩
          rcases split pre g post h with ⟨-, e2, -⟩ | ⟨post', e2, -⟩
          · rw [← h2, e2, hu]
          · exact absurd (h3 f (by rw [e2]; simp) hf.1) hf.2
      · have e : fieldStep (rs.reverse.foldl fieldStep Map.empty) f n = rs.reverse.foldl fieldStep Map.empty n := by
          unfold fieldStep
          cases ht : f.tag with
          | none => rfl
          | some m =>
            simp only
            cases hk : fieldType f.kind with
            | none => rfl
            | some u =>
              simp only [Map.set]
              rw [if_neg]
              intro e
              exact hf ⟨by rw [ht, e], by rw [hk]; simp⟩
        rw [e, ih]
        constructor
        · rintro ⟨pre, g, post, h, h1, h2, h3⟩
          refine ⟨pre, g, post ++ [f], by rw [h]; simp, h1, h2, ?_⟩
          intro x hx hxt
          rcases List.mem_append.1 hx with hx | hx
          · exact h3 x hx hxt
          · rw [List.mem_singleton.1 hx] at hxt ⊢
            by_cases hk : fieldType f.kind = none
            · exact hk
            · exact absurd ⟨hxt, hk⟩ hf
        · rintro ⟨pre, g, post, h, h1, h2, h3⟩
          rcases split pre g post h with ⟨-, e2, -⟩ | ⟨post', e2, e3⟩
          · exact absurd ⟨by rw [← e2, h1], by rw [← e2, h2]; simp⟩ hf
          · exact ⟨pre, g, post', e3, h1, h2, fun x hx => h3 x (by rw [e2]; exact List.mem_append_left _ hx)⟩
  have := gen fs.reverse
  rwa [List.reverse_reverse] at this

/-- C58: `StructToFields` of a struct has a name exactly when a field of a scalar kind carries that tag, with the type of the
last such field. -/
theorem C58_fields (fs : List (Field α)) : ∃ m, structToFields (.struct fs) = some (some m) ∧
    ∀ n t, m n = some t ↔ ∃ pre f post, fs = pre ++ f :: post ∧ f.tag = some n ∧ fieldType f.kind = some t ∧
      ∀ g ∈ post, g.tag = some n → fieldType g.kind = none :=
  ⟨_, rfl, fields_fold fs⟩

theorem props_none (fs : List (Field α)) : fs.foldl propStep none = none := by
  induction fs with
  | nil => rfl
  | cons f fs ih => exact ih

theorem props_fold (fs : List (Field α)) (hex : ∀ f ∈ fs, f.tag ≠ none → f.exported = true) :
    ∃ m, fs.foldl propStep (some Map.empty) = some m ∧ ∀ n v, m n = some v ↔ ∃ pre f post, fs = pre ++ f :: post ∧ f.tag = some n ∧
      f.value = v ∧ ∀ g ∈ post, g.tag ≠ some n := by
  have gen : ∀ (rs : List (Field α)), (∀ f ∈ rs, f.tag ≠ none → f.exported = true) →
      ∃ m, rs.reverse.foldl propStep (some Map.empty) = some m ∧ ∀ n v, m n = some v ↔ ∃ pre f post, rs.reverse = pre ++ f :: post ∧
        f.tag = some n ∧ f.value = v ∧ ∀ g ∈ post, g.tag ≠ some n := by
    intro rs
    induction rs with
    | nil =>
      intro _
      refine ⟨Map.empty, rfl, fun n v => ?_⟩
      constructor
      · intro h; simp [Map.empty] at h
      · rintro ⟨pre, f, post, h, -⟩; simp at h
    | cons f rs ih =>
      intro hex
      obtain ⟨m, hm, hspec⟩ := ih (fun g hg => hex g (List.mem_cons_of_mem _ hg))
      rw [List.reverse_cons, List.foldl_append, hm]
      simp only [List.foldl_cons, List.foldl_nil]
      have split : ∀ pre (g : Field α) post, rs.reverse ++ [f] = pre ++ g :: post →
          (pre = rs.reverse ∧ g = f ∧ post = []) ∨ ∃ post', post = post' ++ [f] ∧ rs.reverse = pre ++ g :: post' := by
        intro pre g post h
        rcases List.eq_nil_or_concat post with e | ⟨post', x, e⟩
        · subst e
          obtain ⟨h1, h2⟩ := List.append_inj' h rfl
          exact Or.inl ⟨h1.symm, by simpa using h2.symm, rfl⟩
        · right
          subst e
          have h' : rs.reverse ++ [f] = (pre ++ g :: post') ++ [x] := by simpa using h
          obtain ⟨h1, h2⟩ := List.append_inj' h' rfl
          exact ⟨post', by simpa using h2.symm, h1⟩
      cases ht : f.tag with
      | none =>
        refine ⟨m, by simp [propStep, ht], fun n v => ?_⟩
        rw [hspec]
        constructor
        · rintro ⟨pre, g, post, h, h1, h2, h3⟩
          refine ⟨pre, g, post ++ [f], by rw [h]; simp, h1, h2, ?_⟩
          intro x hx
          rcases List.mem_append.1 hx with hx | hx
          · exact h3 x hx
          · rw [List.mem_singleton.1 hx, ht]; simp
        · rintro ⟨pre, g, post, h, h1, h2, h3⟩
          rcases split pre g post h with ⟨-, e2, -⟩ | ⟨post', e2, e3⟩
          · rw [e2, ht] at h1; cases h1
          · exact ⟨pre, g, post', e3, h1, h2, fun x hx => h3 x (by rw [e2]; exact List.mem_append_left _ hx)⟩
      | some k =>
        have hx := hex f List.mem_cons_self (by rw [ht]; simp)
        refine ⟨m.set k f.value, by simp [propStep, ht, hx], fun n v => ?_⟩
        unfold Map.set
        by_cases hn : n = k
        · rw [if_pos hn]
          constructor
          · intro h
            simp only [Option.some.injEq] at h
            exact ⟨rs.reverse, f, [], rfl, by rw [ht, hn], h, by simp⟩
          · rintro ⟨pre, g, post, h, h1, h2, h3⟩
            rcases split pre g post h with ⟨-, e2, -⟩ | ⟨post', e2, e3⟩
            · rw [← h2, e2]
            · exact absurd (by rw [ht, hn]) (h3 f (by rw [e2]; simp))
        · rw [if_neg hn, hspec]
          constructor
          · rintro ⟨pre, g, post, h, h1, h2, h3⟩
            refine ⟨pre, g, post ++ [f], by rw [h]; simp, h1, h2, ?_⟩
            intro x hx
            rcases List.mem_append.1 hx with hx | hx
            · exact h3 x hx
            · rw [List.mem_singleton.1 hx, ht]
              intro e
              exact hn (by simpa using e.symm)
          · rintro ⟨pre, g, post, h, h1, h2, h3⟩
            rcases split pre g post h with ⟨-, e2, -⟩ | ⟨post', e2, e3⟩
            · rw [e2, ht] at h1; exact absurd (by simpa using h1.symm) hn
            · exact ⟨pre, g, post', e3, h1, h2, fun x hx => h3 x (by rw [e2]; exact List.mem_append_left _ hx)⟩
  have := gen fs.reverse (by simpa using hex)
  rwa [List.reverse_reverse] at this

/-- C58: `StructToProperties` of a struct whose tagged fields are exported has a name exactly when a field carries that tag, with
the value of the last such field. -/
theorem C58_properties (fs : List (Field α)) (hex : ∀ f ∈ fs, f.tag ≠ none → f.exported = true) :
    ∃ m, structToProperties (.struct fs) = some (some m) ∧
    ∀ n v, m n = some v ↔ ∃ pre f post, fs = pre ++ f :: post ∧ f.tag = some n ∧ f.value = v ∧ ∀ g ∈ post, g.tag ≠ some n := by
  obtain ⟨m, h1, h2⟩ := props_fold fs hex
  exact ⟨m, by simp [structToProperties, indirect, h1], h2⟩

/-- C58: a tagged field that is not exported makes `StructToProperties` panic (`StructToFields` does not look). -/
theorem C58_unexported_panics (fs : List (Field α)) (f : Field α) (hf : f ∈ fs) (ht : f.tag ≠ none) (hx : f.exported = false) :
    structToProperties (.struct fs) = none := by
  have gen : ∀ (fs : List (Field α)) (m : Map α), f ∈ fs → fs.foldl propStep (some m) = none := by
    intro fs
    induction fs with
    | nil => intro m h; cases h
    | cons g fs ih =>
      intro m h
      rw [List.foldl_cons]
      by_cases e : g = f
      · obtain ⟨n, hn⟩ := Option.ne_none_iff_exists'.1 ht
        have : propStep (some m) g = none := by rw [e]; simp [propStep, hn, hx]
        rw [this]; exact props_none fs
      · have h' : f ∈ fs := (List.mem_cons.1 h).resolve_left (fun h => e h.symm)
        cases hg : propStep (some m) g with
        | none => exact props_none fs
        | some m' => exact ih m' h'
  simp [structToProperties, indirect, gen fs Map.empty hf]

theorem exists_last (P : Field α → Prop) (fs : List (Field α)) :
    (∃ x ∈ fs, P x) → ∃ pre g post, fs = pre ++ g :: post ∧ P g ∧ ∀ x ∈ post, ¬ P x := by
  induction fs with
  | nil => rintro ⟨x, hx, -⟩; cases hx
  | cons a fs ih =>
    intro h
    rcases Classical.em (∃ x ∈ fs, P x) with h' | h'
    · obtain ⟨pre, g, post, e, h1, h2⟩ := ih h'
      exact ⟨a :: pre, g, post, by rw [e]; rfl, h1, h2⟩
    · obtain ⟨x, hx, hp⟩ := h
      refine ⟨[], a, fs, rfl, ?_, fun y hy hpy => h' ⟨y, hy, hpy⟩⟩
      rcases List.mem_cons.1 hx with e | e
      · exact e ▸ hp
      · exact absurd ⟨x, e, hp⟩ h'

/-- C58: the names of the two maps.  Each is the set of the tags it should be, so the fields' names are among the properties', and
they are the same when every tagged field is a number, string or boolean. -/
theorem C58_names (fs : List (Field α)) (hex : ∀ f ∈ fs, f.tag ≠ none → f.exported = true) :
    ∃ m p, structToFields (.struct fs) = some (some m) ∧ structToProperties (.struct fs) = some (some p) ∧
      (∀ n, (m n ≠ none ↔ ∃ f ∈ fs, f.tag = some n ∧ fieldType f.kind ≠ none)) ∧
      (∀ n, (p n ≠ none ↔ ∃ f ∈ fs, f.tag = some n)) ∧
      (∀ n, m n ≠ none → p n ≠ none) ∧
      ((∀ f ∈ fs, f.tag ≠ none → fieldType f.kind ≠ none) → ∀ n, (m n ≠ none ↔ p n ≠ none)) := by
  obtain ⟨m, hm, hms⟩ := C58_fields fs
  obtain ⟨p, hp, hps⟩ := C58_properties fs hex
  have h1 : ∀ n, (m n ≠ none ↔ ∃ f ∈ fs, f.tag = some n ∧ fieldType f.kind ≠ none) := by
    intro n
    constructor
    · intro h
      obtain ⟨t, ht⟩ := Option.ne_none_iff_exists'.1 h
      obtain ⟨pre, f, post, e, a, b, -⟩ := (hms n t).1 ht
      exact ⟨f, by rw [e]; simp, a, by rw [b]; simp⟩
    · intro h
      obtain ⟨pre, g, post, e, ⟨a, b⟩, c⟩ := exists_last (fun f => f.tag = some n ∧ fieldType f.kind ≠ none) fs h
      obtain ⟨t, ht⟩ := Option.ne_none_iff_exists'.1 b
      have := (hms n t).2 ⟨pre, g, post, e, a, ht, fun x hx hxt => Classical.byContradiction fun hk => c x hx ⟨hxt, hk⟩⟩
      rw [this]; simp
  have h2 : ∀ n, (p n ≠ none ↔ ∃ f ∈ fs, f.tag = some n) := by
    intro n
    constructor
    · intro h
      obtain ⟨v, hv⟩ := Option.ne_none_iff_exists'.1 h
      obtain ⟨pre, f, post, e, a, -, -⟩ := (hps n v).1 hv
      exact ⟨f, by rw [e]; simp, a⟩
    · intro h
      obtain ⟨pre, g, post, e, a, c⟩ := exists_last (fun f => f.tag = some n) fs h
      have := (hps n g.value).2 ⟨pre, g, post, e, a, rfl, c⟩
      rw [this]; simp
  refine ⟨m, p, hm, hp, h1, h2, ?_, ?_⟩
  · intro n h
    obtain ⟨f, hf, ht, -⟩ := (h1 n).1 h
    exact (h2 n).2 ⟨f, hf, ht⟩
  · intro hall n
    rw [h1, h2]
    constructor
    · rintro ⟨f, hf, ht, -⟩; exact ⟨f, hf, ht⟩
    · rintro ⟨f, hf, ht⟩; exact ⟨f, hf, ht, hall f hf (by rw [ht]; simp)⟩

/-- `v` behind `d` pointers that are not nil -/
def behind : Nat → Val α → Val α
  | 0, v => v
  | d + 1, v => .ptr false (behind d v)

/-- C58: pointers are followed, however many; other values and nil give nil, except that `StructToFields` panics on a nil
interface, and that a nil pointer to a struct has fields but no properties. -/
theorem C58_pointers (v : Val α) (d : Nat) (fs : List (Field α)) :
    structToFields (behind d v) = structToFields v ∧ structToProperties (behind d v) = structToProperties v ∧
    structToFields (.other : Val α) = some none ∧ structToProperties (.other : Val α) = some none ∧
    structToFields (.nil : Val α) = none ∧ structToProperties (.nil : Val α) = some none ∧
    structToFields (.ptr true (.struct fs)) = structToFields (.struct fs) ∧
    structToProperties (.ptr true (.struct fs)) = some none := by
  refine ⟨?_, ?_, rfl, rfl, rfl, rfl, rfl, rfl⟩
  · induction d with
    | zero => rfl
    | succ d ih =>
      have : structToFields (behind (d + 1) v) = structToFields (behind d v) := rfl
      rw [this, ih]
  · induction d with
    | zero => rfl
    | succ d ih =>
      have : structToProperties (behind (d + 1) v) = structToProperties (behind d v) := rfl
      rw [this, ih]

/-- the struct of the package's test, with one more field of a kind that has no type and one without a tag -/
theorem C58_example : ∃ m p, structToFields (.struct [⟨some "class", .string, 1, true⟩, ⟨some "ele", .float64, 2, true⟩,
      ⟨some "list", .slice, 3, true⟩, ⟨none, .int, 4, false⟩] : Val Nat) = some (some m) ∧
    structToProperties (.struct [⟨some "class", .string, 1, true⟩, ⟨some "ele", .float64, 2, true⟩,
      ⟨some "list", .slice, 3, true⟩, ⟨none, .int, 4, false⟩] : Val Nat) = some (some p) ∧
    m "class" = some .string ∧ m "ele" = some .number ∧ m "list" = none ∧ p "list" = some 3 ∧ p "ele" = some 2 :=
  ⟨_, _, rfl, rfl, by decide, by decide, by decide, by decide, by decide⟩

end Verif.TileJson
