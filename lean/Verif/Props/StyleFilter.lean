import Verif.Model.StyleFilter
import Mathlib.Data.List.Nodup
import Mathlib.Data.List.Perm.Basic

/-!
# C55, C56, C63: style sets, filters, background colour
-/
namespace Verif.Style

/-! ## C56 filters -/

mutual
/-- What a filter array means, by its shape: `["op"]`; `["op", sub, sub, ...]` with arrays as sub-filters;
`["op", "class"|"subclass"|"$type", operand, ...]` with string operands; `["op", other, ...]`, whose operands
are not kept, but whose numbers must be in the range of float64.  A null operator counts as "" in a logical filter. -/
inductive Reads : Json → Filter → Prop
  | single (op) : Reads (.arr [.str op]) (.logical op [])
  | singleNull : Reads (.arr [.null]) (.logical "" [])
  | logical (op l js f fs) (h : Reads (.arr l) f) (hs : ReadsAll js fs) :
      Reads (.arr (.str op :: .arr l :: js)) (.logical op (f :: fs))
  | logicalNull (l js f fs) (h : Reads (.arr l) f) (hs : ReadsAll js fs) :
      Reads (.arr (.null :: .arr l :: js)) (.logical "" (f :: fs))
  | cls (op ops) : Reads (.arr (.str op :: .str "class" :: ops.map .str)) (.comparative op (.cls ops))
  | subclass (op ops) :
      Reads (.arr (.str op :: .str "subclass" :: ops.map .str)) (.comparative op (.subclass ops))
  | type (op ops) : Reads (.arr (.str op :: .str "$type" :: ops.map .str)) (.comparative op (.type ops))
  | other (op name rest) (h : name ≠ "class" ∧ name ≠ "subclass" ∧ name ≠ "$type") (hr : Json.saneL rest = true) :
      Reads (.arr (.str op :: .str name :: rest)) (.comparative op .unhandled)
/-- Sub-filters one by one, in order. -/
inductive ReadsAll : List Json → List Filter → Prop
  | nil : ReadsAll [] []
  | cons (j js f fs) (h : Reads j f) (hs : ReadsAll js fs) : ReadsAll (j :: js) (f :: fs)
end

theorem stringList_map : ∀ ops : List String, stringList (ops.map .str) = .ok ops
  | [] => rfl
  | s :: ops => by simp only [List.map_cons, stringList, stringList_map ops]

theorem stringList_inv : ∀ {l : List Json} {ops : List String}, stringList l = .ok ops → l = ops.map .str
  | [], ops, h => by simp only [stringList, Except.ok.injEq] at h; subst h; rfl
  | .str s :: l, ops, h => by
    simp only [stringList] at h
    split at h
    · cases h
    · rename_i l' hl
      cases h
      simp [stringList_inv hl]
  | .null :: _, _, h => by simp [stringList] at h
  | .bool _ :: _, _, h => by simp [stringList] at h
  | .num _ :: _, _, h => by simp [stringList] at h
  | .arr _ :: _, _, h => by simp [stringList] at h
  | .obj _ :: _, _, h => by simp [stringList] at h

theorem stringList_err {l : List Json} (h : ∃ j ∈ l, ∀ s, j ≠ .str s) : stringList l = .error .err := by
  induction l with
  | nil => obtain ⟨_, h, _⟩ := h; simp at h
  | cons a l ih =>
    cases a with
    | str s =>
      simp only [stringList]
      rw [ih]
      obtain ⟨j, hj, hs⟩ := h
      rcases List.mem_cons.1 hj with rfl | hj
      · exact absurd rfl (hs s)
      · exact ⟨j, hj, hs⟩
    | _ => rfl

theorem withOperands_inv {mk : List String → Category} {l : List Json} {c : Category}
    (h : withOperands mk l = .ok c) : ∃ ops, l = ops.map .str ∧ c = mk ops := by
  unfold withOperands at h
  split at h
  · cases h
  · rename_i ops ho
    cases h
    exact ⟨ops, stringList_inv ho, rfl⟩

theorem comparative_inv {op : Json} {name : String} {rest : List Json} {f : Filter} (hr : Json.saneL rest = true)
    (h : comparative op name rest = .ok f) : Reads (.arr (op :: .str name :: rest)) f := by
  unfold comparative at h
  split at h
  · rename_i o
    split at h
    · cases h
    · rename_i c hc
      cases h
      unfold categoryOf at hc
      split at hc
      · rename_i hn
        obtain ⟨ops, rfl, rfl⟩ := withOperands_inv hc
        subst hn; exact .cls o ops
      · split at hc
        · rename_i hn
          obtain ⟨ops, rfl, rfl⟩ := withOperands_inv hc
          subst hn; exact .subclass o ops
        · split at hc
          · rename_i hn
            obtain ⟨ops, rfl, rfl⟩ := withOperands_inv hc
            subst hn; exact .type o ops
          · rename_i h1 h2 h3
            cases hc
            exact .other o name rest ⟨h1, h2, h3⟩ hr
  · cases h

theorem operatorOf_inv {j : Json} {o : String} (h : operatorOf j = .ok o) :
    j = .str o ∨ (j = .null ∧ o = "") := by
  unfold operatorOf at h
  split at h
  · cases h; exact .inl rfl
  · cases h; exact .inr ⟨rfl, rfl⟩
  · cases h

mutual
theorem unmarshal_sound : ∀ (j : Json) (f : Filter), unmarshalFilter j = .ok f → Reads j f
  | .null, f, h => by simp [unmarshalFilter] at h
  | .bool _, f, h => by simp [unmarshalFilter] at h
  | .num _, f, h => by simp [unmarshalFilter] at h
  | .str _, f, h => by simp [unmarshalFilter] at h
  | .obj _, f, h => by simp [unmarshalFilter] at h
  | .huge, f, h => by simp [unmarshalFilter] at h
  | .arr [], f, h => by simp [unmarshalFilter] at h
  | .arr [op], f, h => by
    simp only [unmarshalFilter] at h
    split at h
    · cases h
    · rename_i o ho
      cases h
      rcases operatorOf_inv ho with rfl | ⟨rfl, rfl⟩
      · exact .single o
      · exact .singleNull
  | .arr (op :: .arr l :: rest), f, h => by
    simp only [unmarshalFilter] at h
    split at h
    · cases h
    · rename_i o ho
      by_cases hsane : (!(Json.arr l).sane) = true
      · rw [if_pos hsane] at h; cases h
      rw [if_neg hsane] at h
      split at h
      · cases h
      · rename_i f1 h1
        split at h
        · cases h
        · rename_i fs h2
          cases h
          have r1 := unmarshal_sound (.arr l) f1 h1
          have r2 := unmarshals_sound rest fs h2
          rcases operatorOf_inv ho with rfl | ⟨rfl, rfl⟩
          · exact .logical o l rest f1 fs r1 r2
          · exact .logicalNull l rest f1 fs r1 r2
  | .arr (op :: .str name :: rest), f, h => by
    simp only [unmarshalFilter, Json.sane, Bool.not_true, Bool.false_eq_true, if_false] at h
    split at h
    · cases h
    · by_cases hsane : (!Json.saneL rest) = true
      · rw [if_pos hsane] at h; cases h
      · rw [if_neg hsane] at h
        exact comparative_inv (by simpa using hsane) h
  | .arr (op :: .huge :: rest), f, h => by
    simp only [unmarshalFilter] at h
    split at h
    · cases h
    · split at h <;> cases h
  | .arr (op :: .null :: rest), f, h => by
    simp only [unmarshalFilter] at h
    split at h
    · cases h
    · split at h <;> cases h
  | .arr (op :: .bool _ :: rest), f, h => by
    simp only [unmarshalFilter] at h
    split at h
    · cases h
    · split at h <;> cases h
  | .arr (op :: .num _ :: rest), f, h => by
    simp only [unmarshalFilter] at h
    split at h
    · cases h
    · split at h <;> cases h
  | .arr (op :: .obj _ :: rest), f, h => by
    simp only [unmarshalFilter] at h
    split at h
    · cases h
    · split at h <;> cases h
theorem unmarshals_sound : ∀ (js : List Json) (fs : List Filter), unmarshalFilters js = .ok fs → ReadsAll js fs
  | [], fs, h => by
    simp only [unmarshalFilters, Except.ok.injEq] at h
    subst h; exact .nil
  | j :: js, fs, h => by
    simp only [unmarshalFilters] at h
    split at h
    · cases h
    · rename_i f1 h1
      split at h
      · cases h
      · rename_i fs1 h2
        cases h
        exact .cons j js f1 fs1 (unmarshal_sound j f1 h1) (unmarshals_sound js fs1 h2)
end

theorem saneL_strs : ∀ ops : List String, Json.saneL (ops.map .str) = true
  | [] => rfl
  | _ :: ops => by simp [Json.saneL, Json.sane, saneL_strs ops]

mutual
/-- A filter that can be read has no number out of range. -/
theorem reads_sane : ∀ {j : Json} {f : Filter}, Reads j f → j.sane = true
  | _, _, .single op => by simp [Json.sane, Json.saneL]
  | _, _, .singleNull => by simp [Json.sane, Json.saneL]
  | _, _, .logical op l js f fs h hs => by
    have h1 := reads_sane h
    simp only [Json.sane] at h1
    simp [Json.sane, Json.saneL, h1, readsAll_sane hs]
  | _, _, .logicalNull l js f fs h hs => by
    have h1 := reads_sane h
    simp only [Json.sane] at h1
    simp [Json.sane, Json.saneL, h1, readsAll_sane hs]
  | _, _, .cls op ops => by simp [Json.sane, Json.saneL, saneL_strs]
  | _, _, .subclass op ops => by simp [Json.sane, Json.saneL, saneL_strs]
  | _, _, .type op ops => by simp [Json.sane, Json.saneL, saneL_strs]
  | _, _, .other op name rest h hr => by simp [Json.sane, Json.saneL, hr]
theorem readsAll_sane : ∀ {js : List Json} {fs : List Filter}, ReadsAll js fs → Json.saneL js = true
  | _, _, .nil => rfl
  | _, _, .cons j js f fs h hs => by simp [Json.saneL, reads_sane h, readsAll_sane hs]
end

mutual
theorem unmarshal_complete : ∀ {j : Json} {f : Filter}, Reads j f → unmarshalFilter j = .ok f
  | _, _, .single op => by simp [unmarshalFilter, operatorOf]
  | _, _, .singleNull => by simp [unmarshalFilter, operatorOf]
  | _, _, .logical op l js f fs h hs => by
    simp only [unmarshalFilter, operatorOf, unmarshal_complete h, unmarshals_complete hs, reads_sane h, Bool.not_true, Bool.false_eq_true,
      if_false]
  | _, _, .logicalNull l js f fs h hs => by
    simp only [unmarshalFilter, operatorOf, unmarshal_complete h, unmarshals_complete hs, reads_sane h, Bool.not_true, Bool.false_eq_true,
      if_false]
  | _, _, .cls op ops => by
    simp [unmarshalFilter, operatorOf, comparative, categoryOf, withOperands, stringList_map, Json.sane, saneL_strs]
  | _, _, .subclass op ops => by
    simp [unmarshalFilter, operatorOf, comparative, categoryOf, withOperands, stringList_map, Json.sane, saneL_strs]
  | _, _, .type op ops => by
    simp [unmarshalFilter, operatorOf, comparative, categoryOf, withOperands, stringList_map, Json.sane, saneL_strs]
  | _, _, .other op name rest h hr => by
    simp [unmarshalFilter, operatorOf, comparative, categoryOf, h.1, h.2.1, h.2.2, Json.sane, hr]
theorem unmarshals_complete : ∀ {js : List Json} {fs : List Filter}, ReadsAll js fs → unmarshalFilters js = .ok fs
  | _, _, .nil => rfl
  | _, _, .cons j js f fs h hs => by
    simp only [unmarshalFilters, unmarshal_complete h, unmarshals_complete hs]
end

/-- Parsing succeeds with filter `f` exactly when the JSON has the shape of `f`: operator kept, sub-filters
nested in order to any depth, operands of class/subclass/$type comparisons all kept. -/
theorem C56_parse (j : Json) (f : Filter) : unmarshalFilter j = .ok f ↔ Reads j f :=
  ⟨unmarshal_sound j f, unmarshal_complete⟩

/-- A comparison on class, subclass or $type with an operand that is not a string is an error. -/
theorem C56_nonstring_operand (op name : String) (rest : List Json)
    (hn : name = "class" ∨ name = "subclass" ∨ name = "$type") (h : ∃ j ∈ rest, ∀ s, j ≠ .str s) :
    unmarshalFilter (.arr (.str op :: .str name :: rest)) = .error .err := by
  have := stringList_err h
  rcases hn with rfl | rfl | rfl <;>
    simp [unmarshalFilter, operatorOf, comparative, categoryOf, withOperands, this, Json.sane]

/-- On any other property the operands are dropped: filters that differ only there parse to the same thing, as long as the numbers among
the operands are in the range of float64. -/
theorem C56_operands_dropped (op name : String) (rest rest' : List Json)
    (hn : name ≠ "class" ∧ name ≠ "subclass" ∧ name ≠ "$type") (hr : Json.saneL rest = true) (hr' : Json.saneL rest' = true) :
    unmarshalFilter (.arr (.str op :: .str name :: rest)) = .ok (.comparative op .unhandled) ∧
    unmarshalFilter (.arr (.str op :: .str name :: rest')) = .ok (.comparative op .unhandled) :=
  ⟨unmarshal_complete (.other op name rest hn hr), unmarshal_complete (.other op name rest' hn hr')⟩

/-- What panics: null, the empty array, a second element that is neither array nor string (after a good
operator), a null operator of a comparison — anywhere in the nesting that is reached, when no number is out of range. -/
theorem C56_panics (op name : String) (rest : List Json) (second : Json)
    (h : (∀ l, second ≠ .arr l) ∧ (∀ s, second ≠ .str s)) (hs : second.sane = true) (hr : Json.saneL rest = true) :
    unmarshalFilter .null = .error .panic ∧ unmarshalFilter (.arr []) = .error .panic ∧
    unmarshalFilter (.arr (.str op :: second :: rest)) = .error .panic ∧
    unmarshalFilter (.arr (.null :: .str name :: rest)) = .error .panic := by
  refine ⟨by simp [unmarshalFilter], by simp [unmarshalFilter], ?_, by simp [unmarshalFilter, operatorOf, comparative, Json.sane, hr]⟩
  cases second with
  | arr l => exact absurd rfl (h.1 l)
  | str s => exact absurd rfl (h.2 s)
  | huge => simp [Json.sane] at hs
  | obj l => simp only [unmarshalFilter, operatorOf, hs]; rfl
  | _ => simp [unmarshalFilter, operatorOf, Json.sane]

/-- C56: a number beyond the range of float64 among the operands of a comparison is an error, whatever the property. -/
theorem C56_out_of_range (op name : String) (rest : List Json) (h : Json.saneL rest = false) :
    unmarshalFilter (.arr (.str op :: .str name :: rest)) = .error .err := by
  simp [unmarshalFilter, operatorOf, Json.sane, h]

/-- C56: `FilterContainer.UnmarshalJSON` holds the parsed filter, with its operator and kind, or, on an error, what it held
before. -/
theorem C56_container (held : Option Filter) (j : Json) :
    (∀ f, Reads j f → containerUnmarshal held j = (some f, .ok ())) ∧
    ((¬ ∃ f, Reads j f) → ∃ e, containerUnmarshal held j = (held, .error e)) := by
  constructor
  · intro f h
    unfold containerUnmarshal
    rw [unmarshal_complete h]
  · intro h
    unfold containerUnmarshal
    cases hu : unmarshalFilter j with
    | error e => exact ⟨e, rfl⟩
    | ok f => exact absurd ⟨f, (C56_parse j f).1 hu⟩ h

/-- C56: the operator of an accepted filter is the first element of its array, "" for null; it is a comparison exactly when
the second element is a string. -/
theorem C56_operator_kind (j : Json) (f : Filter) (h : Reads j f) :
    ∃ op rest, j = .arr (op :: rest) ∧ (op = .str f.operator ∨ op = .null ∧ f.operator = "") ∧
      (f.type = .comparative ↔ ∃ name more, rest = .str name :: more) := by
  cases h <;> exact ⟨_, _, rfl, by simp [Filter.operator], by simp [Filter.type]⟩

/-- C56: `ComparativeFilter.UnmarshalJSON` called directly: an accepted comparison replaces the filter whatever it was and
counts its operands; a bad operand is an error that leaves the new operator next to the old category. -/
theorem C56_into (cf : String × Option Category) (op name : String) (ops : List Json) :
    (∀ c, unmarshalFilter (.arr (.str op :: .str name :: ops)) = .ok (.comparative op c) →
      comparativeInto cf (.arr (.str op :: .str name :: ops)) = ((op, some c), .ok ()) ∧
      c.operandCount = if name = "class" ∨ name = "subclass" ∨ name = "$type" then ops.length else 0) ∧
    ((name = "class" ∨ name = "subclass" ∨ name = "$type") → (∃ j ∈ ops, ∀ s, j ≠ .str s) → Json.saneL ops = true →
      comparativeInto cf (.arr (.str op :: .str name :: ops)) = ((op, cf.2), .error .err)) := by
  constructor
  · intro c h
    have hsane : Json.saneL ops = true := by
      by_contra hc
      rw [C56_out_of_range _ _ _ (by simpa using hc)] at h
      cases h
    simp only [unmarshalFilter, operatorOf, comparative, Json.sane, hsane, Bool.not_true, Bool.false_eq_true, if_false] at h
    cases hc : categoryOf name ops with
    | error e => simp [hc] at h
    | ok c' =>
      simp [hc] at h
      subst h
      refine ⟨by simp [comparativeInto, hc, Json.sane, Json.saneL, hsane], ?_⟩
      have len : ∀ l l', stringList l = .ok l' → l'.length = l.length := by
        intro l
        induction l with
        | nil => intro l' h; simp [stringList] at h; simp [← h]
        | cons j l ih =>
          intro l' h
          cases j with
          | str s =>
            simp only [stringList] at h
            cases hs : stringList l with
            | error e => simp [hs] at h
            | ok l2 =>
              simp [hs] at h
              rw [← h]
              simp [ih l2 hs]
          | _ => simp [stringList] at h
      unfold categoryOf at hc
      by_cases h1 : name = "class"
      · rw [if_pos h1] at hc
        unfold withOperands at hc
        cases hs : stringList ops with
        | error e => simp [hs] at hc
        | ok l => simp [hs] at hc; rw [← hc, if_pos (.inl h1)]; exact len _ _ hs
      · rw [if_neg h1] at hc
        by_cases h2 : name = "subclass"
        · rw [if_pos h2] at hc
          unfold withOperands at hc
          cases hs : stringList ops with
          | error e => simp [hs] at hc
          | ok l => simp [hs] at hc; rw [← hc, if_pos (.inr (.inl h2))]; exact len _ _ hs
        · rw [if_neg h2] at hc
          by_cases h3 : name = "$type"
          · rw [if_pos h3] at hc
            unfold withOperands at hc
            cases hs : stringList ops with
            | error e => simp [hs] at hc
            | ok l => simp [hs] at hc; rw [← hc, if_pos (.inr (.inr h3))]; exact len _ _ hs
          · rw [if_neg h3] at hc
            simp at hc
            rw [← hc, if_neg (by tauto)]; rfl
  · intro hn h hsane
    have := stringList_err h
    rcases hn with rfl | rfl | rfl <;> simp [comparativeInto, categoryOf, withOperands, this, Json.sane, Json.saneL, hsane]

/-- cases that meet the hypotheses -/
theorem C56_into_example :
    comparativeInto ("==", some (.cls ["river"])) (.arr [.str "in", .str "class", .num ⟨3, some 3⟩]) = (("in", some (.cls ["river"])), .error .err) ∧
    comparativeInto ("==", none) (.arr [.str "in", .str "class", .str "a", .str "b"]) = (("in", some (.cls ["a", "b"])), .ok ()) := by
  constructor
  · exact (C56_into _ _ _ _).2 (.inl rfl) ⟨.num ⟨3, some 3⟩, by simp, by simp⟩ rfl
  · rfl

/-- `["all", ["==","$type","Polygon"], ["in","class","river","canal"], ["any", ["!=","brunnel","tunnel"]]]` -/
example : unmarshalFilter (.arr [.str "all",
    .arr [.str "==", .str "$type", .str "Polygon"],
    .arr [.str "in", .str "class", .str "river", .str "canal"],
    .arr [.str "any", .arr [.str "!=", .str "brunnel", .str "tunnel"]]]) =
    .ok (.logical "all" [.comparative "==" (.type ["Polygon"]), .comparative "in" (.cls ["river", "canal"]),
      .logical "any" [.comparative "!=" .unhandled]]) := by
  rw [C56_parse]
  refine .logical _ _ _ _ _ (.type "==" ["Polygon"]) (.cons _ _ _ _ (.cls "in" ["river", "canal"])
    (.cons _ _ _ _ (.logical _ _ _ _ _ (.other _ _ _ (by decide) rfl) .nil) .nil))

/-! ## C55 style sets -/

variable {β : Type}

theorem mapGet_append (m : List (String × StyleDoc β)) (s : StyleDoc β) (k : String)
    (h : mapGet m s.id = none) :
    mapGet (m ++ [(s.id, s)]) k = if k = s.id then some s else mapGet m k := by
  unfold mapGet at h ⊢
  rw [List.find?_append]
  by_cases hk : k = s.id
  · subst hk
    simp only [Option.map_eq_none_iff] at h
    simp [h]
  · rw [if_neg hk]
    simp [Ne.symm hk, hk, eq_comm]

/-- the map the loop builds -/
theorem styleLoop_ok (d : String) : ∀ (l : List (StyleDoc β)) (m : List (String × StyleDoc β)) (b : Bool),
    (∀ s ∈ l, mapGet m s.id = none) → (l.map StyleDoc.id).Nodup →
    styleLoop d l m b = .ok (m ++ l.map (fun s => (s.id, s)), b || decide (d ∈ l.map StyleDoc.id))
  | [], m, b, _, _ => by simp [styleLoop]
  | s :: l, m, b, h, hn => by
    have hs := h s (by simp)
    simp only [List.map_cons, List.nodup_cons] at hn
    simp only [styleLoop, hs, Option.isSome_none, Bool.false_eq_true, if_false]
    rw [styleLoop_ok d l _ _ _ hn.2]
    · simp [Bool.or_assoc, Bool.decide_or, List.append_assoc]
    · intro t ht
      rw [mapGet_append m s t.id hs, if_neg]
      · exact h t (by simp [ht])
      · intro e
        exact hn.1 (by rw [← e]; exact List.mem_map_of_mem ht)

theorem styleLoop_err (d : String) : ∀ (l : List (StyleDoc β)) (m : List (String × StyleDoc β)) (b : Bool),
    (∀ s ∈ l, mapGet m s.id = none) → ¬ (l.map StyleDoc.id).Nodup → styleLoop d l m b = .error .err
  | [], m, b, _, hn => by simp at hn
  | s :: l, m, b, h, hn => by
    have hs := h s (by simp)
    simp only [styleLoop, hs, Option.isSome_none, Bool.false_eq_true, if_false]
    by_cases hmem : s.id ∈ l.map StyleDoc.id
    · -- the duplicate is met later
      have key : ∀ (l : List (StyleDoc β)) (m : List (String × StyleDoc β)) (b : Bool),
          (mapGet m s.id).isSome → s.id ∈ l.map StyleDoc.id → styleLoop d l m b = .error .err := by
        intro l
        induction l with
        | nil => intro m b _ h; simp at h
        | cons t l ih =>
          intro m b hm ht
          simp only [styleLoop]
          split
          · rfl
          · rename_i hnone
            have hnone' : mapGet m t.id = none := by simpa using hnone
            simp only [List.map_cons, List.mem_cons] at ht
            rcases ht with e | ht
            · rw [e, hnone'] at hm; simp at hm
            · apply ih _ _ _ ht
              rw [mapGet_append m t s.id hnone']
              split
              · simp
              · exact hm
      apply key
      · rw [mapGet_append m s s.id hs]; simp
      · exact hmem
    · refine styleLoop_err d l _ _ ?_ ?_
      · intro t ht
        rw [mapGet_append m s t.id hs, if_neg]
        · exact h t (by simp [ht])
        · intro e; exact hmem (by rw [← e]; exact List.mem_map_of_mem ht)
      · intro h'; exact hn (by simp only [List.map_cons, List.nodup_cons]; exact ⟨hmem, h'⟩)

/-- `NewStyleSet` succeeds exactly when the ids are distinct and contain the default id; otherwise it is an
error. -/
theorem C55_new (styles : List (StyleDoc β)) (d : String) :
    ((∃ s, newStyleSet styles d = .ok s) ↔ (styles.map StyleDoc.id).Nodup ∧ d ∈ styles.map StyleDoc.id) ∧
    ((∃ s, newStyleSet styles d = .ok s) ∨ newStyleSet styles d = .error .err) := by
  by_cases hn : (styles.map StyleDoc.id).Nodup
  · have := styleLoop_ok d styles [] false (by intro s _; rfl) hn
    unfold newStyleSet
    rw [this]
    by_cases hd : d ∈ styles.map StyleDoc.id
    · simp [hd, hn]
    · simp [hd, hn]
  · have := styleLoop_err d styles [] false (by intro s _; rfl) hn
    unfold newStyleSet
    rw [this]
    simp [hn]

theorem mapGet_map (l : List (StyleDoc β)) (hn : (l.map StyleDoc.id).Nodup) {s : StyleDoc β} (h : s ∈ l) :
    mapGet (l.map (fun s => (s.id, s))) s.id = some s := by
  induction l with
  | nil => simp at h
  | cons t l ih =>
    simp only [List.map_cons, List.nodup_cons] at hn
    unfold mapGet at ih ⊢
    rcases List.mem_cons.1 h with rfl | h
    · simp
    · have : t.id ≠ s.id := fun e => hn.1 (by rw [e]; exact List.mem_map_of_mem h)
      simp only [List.map_cons, List.find?_cons, this, decide_false]
      exact ih hn.2 h

theorem mapGet_map_none (l : List (StyleDoc β)) {k : String} (h : k ∉ l.map StyleDoc.id) :
    mapGet (l.map (fun s => (s.id, s))) k = none := by
  unfold mapGet
  rw [Option.map_eq_none_iff, List.find?_eq_none]
  intro p hp
  obtain ⟨s, hs, rfl⟩ := List.mem_map.1 hp
  simp only [decide_eq_true_eq]
  intro e
  exact h (by rw [← e]; exact List.mem_map_of_mem hs)

/-- After success: every style is found under its id, an unknown id gives the zero style, the default style is
the one with the default id, and the listed ids are each style's id exactly once, in some order. -/
theorem C55_lookup [Inhabited β] (styles : List (StyleDoc β)) (d : String) (set : StyleSet β)
    (h : newStyleSet styles d = .ok set) :
    (∀ s ∈ styles, set.byID s.id = s) ∧
    (∀ k, k ∉ styles.map StyleDoc.id → set.byID k = ⟨"", default⟩) ∧
    (set.default.id = d ∧ set.default ∈ styles) ∧
    (∀ out, set.AllIDs out → out.Nodup ∧ ∀ k, k ∈ out ↔ k ∈ styles.map StyleDoc.id) := by
  have hc := ((C55_new styles d).1.1 ⟨set, h⟩)
  have hl := styleLoop_ok d styles [] false (by intro s _; rfl) hc.1
  unfold newStyleSet at h
  rw [hl] at h
  simp only [List.nil_append, Bool.false_or, hc.2, decide_true, if_true, Except.ok.injEq] at h
  subst h
  have hfind : ∀ s ∈ styles, (StyleSet.byID ⟨styles.map (fun s => (s.id, s)), d⟩ s.id : StyleDoc β) = s := by
    intro s hs
    unfold StyleSet.byID
    simp only [mapGet_map styles hc.1 hs, Option.getD_some]
  refine ⟨hfind, ?_, ?_, ?_⟩
  · intro k hk
    unfold StyleSet.byID
    simp only [mapGet_map_none styles hk, Option.getD_none]
  · obtain ⟨s, hs, e⟩ := List.mem_map.1 hc.2
    have := hfind s hs
    unfold StyleSet.default
    subst e
    rw [this]
    exact ⟨rfl, hs⟩
  · intro out ho
    unfold StyleSet.AllIDs at ho
    have e : (styles.map (fun s => (s.id, s))).map Prod.fst = styles.map StyleDoc.id := by
      rw [List.map_map]; rfl
    simp only [e] at ho
    exact ⟨ho.nodup_iff.2 hc.1, fun k => ho.mem_iff⟩

example : ∃ s, newStyleSet [(⟨"light", 1⟩ : StyleDoc Nat), ⟨"dark", 2⟩] "dark" = .ok s :=
  (C55_new _ _).1.2 ⟨by decide, by decide⟩

/-! ## C63 background colour -/

variable {K : Type} [Field K] [LinearOrder K] [IsStrictOrderedRing K] [FloorRing K]

/-- The background of a style is white unless the first layer is called "background"; then it is that
layer's background colour at zoom 0 — none at all when the layer's paint has no background colour, and a
panic when the layer has no paint. -/
theorem C63_background (A : Arith K) (layers : List (String × Option (ColProp K))) :
    (∀ p, layers.head? ≠ some ("background", p)) → backgroundColor A layers = .ok (.color (.rgba 255 255 255 255)) := by
  intro h
  cases layers with
  | nil => rfl
  | cons l rest =>
    obtain ⟨id, p⟩ := l
    simp only [backgroundColor]
    rw [if_neg]
    rintro rfl
    exact h p rfl

theorem C63_background_layer (A : Arith K) (c : Color K) (rest : List (String × Option (ColProp K))) :
    backgroundColor A (("background", some (.plain c)) :: rest) = .ok (.color c) ∧
    (∀ st base, backgroundColor A (("background", some (.stops st base)) :: rest) = colValue A st base 0) ∧
    backgroundColor A (("background", some .absent) :: rest) = .ok (.color .nil) ∧
    backgroundColor A (("background", none) :: rest) = .error .panic := by
  refine ⟨?_, ?_, ?_, ?_⟩ <;> simp [backgroundColor, ColProp.at]

/-- A style validates exactly when its version is 8. -/
theorem C63_version (v : Int) : styleValidate v = .ok () ↔ v = 8 := by
  unfold styleValidate
  by_cases h : v = 8 <;> simp [h]

end Verif.Style
