import Verif.Proof.MvtFeature
import Verif.Spec.MvtWire

/-! # Lemmas about reading tiles of any writer -/
namespace Verif.Mvt
open Verif.Go Verif.Pbf

theorem lastOr_append {α β : Type} (d : β) (f : α → Option β) (a b : List α) :
    lastOr d f (a ++ b) = lastOr (lastOr d f a) f b := by
  unfold lastOr
  rw [List.filterMap_append, List.getLast?_append]
  cases (b.filterMap f).getLast? <;> simp

theorem lastOr_single_some {α β : Type} (d : β) (f : α → Option β) (x : α) (v : β) (h : f x = some v) : lastOr d f [x] = v := by
  simp [lastOr, h]

theorem lastOr_single_none {α β : Type} (d : β) (f : α → Option β) (x : α) (h : f x = none) : lastOr d f [x] = d := by
  simp [lastOr, h]

/-! ## Feature messages -/

section feat
variable (P : Proto) (hP : P.Good) (b : Bytes) (l : Layer)

/-- What reading the fields `fs` makes of `f0`. -/
def featAfter (f0 : Feature) (gp : Int) (fs : List FField) : Feature :=
  { id := ((fs.filterMap FField.id?).getLast?.map (fun v : Nat => (v : Int))).getD f0.id
    props := f0.props ++ (fs.flatMap FField.tags?).map (fun e => (l.keys.getD e.1 [], l.values.getD e.2 (.str [])))
    geometryPos := gp
    geomInt := lastOr f0.geomInt FField.type? fs
    extent := f0.extent }

theorem resolveTags_pairs (keys : List Bytes) (values : List Val) (ps : List (Nat × Nat)) :
    resolveTags keys values (tagWords ps) = some (ps.map fun e => (keys.getD e.1 [], values.getD e.2 (.str []))) := by
  induction ps with
  | nil => rfl
  | cons e ps ih =>
    have : tagWords (e :: ps) = e.1 :: e.2 :: tagWords ps := rfl
    rw [this, resolveTags, ih]
    simp [List.getD]

include hP in
/-- One field of a feature. -/
theorem featField_step (skip : Int) (st : FS) (x : FField) (hx : x.Ok) (s : Bytes) (hfit : (x.bytes P).length < 9223372036854775808)
    (h : At b st.pos (x.bytes P ++ s)) :
    ∃ gp, featLoopBody P b skip l st = some ⟨st.pos + (x.bytes P).length + (if x.geometry?.isSome then skip else 0), featAfter l st.feat gp [x]⟩ ∧
      (x.geometry? = none → gp = st.feat.geometryPos) ∧
      ∀ ws, x.geometry? = some ws → (readPacked b gp).map (·.1) = some ws := by
  cases x with
  | id v =>
    refine ⟨st.feat.geometryPos, ?_, fun _ => rfl, fun ws hw => by simp [FField.geometry?] at hw⟩
    have hv : v < 9223372036854775808 := hx
    rw [FField.bytes, featStep_id P hP b skip l st v s (by omega) h, i64_small v hv]
    simp [featAfter, FField.id?, FField.tags?, lastOr, FField.type?, FField.geometry?]
  | tags ps =>
    refine ⟨st.feat.geometryPos, ?_, fun _ => rfl, fun ws hw => by simp [FField.geometry?] at hw⟩
    have hw : ∀ w ∈ tagWords ps, w < 4294967296 := by
      intro w hw
      simp only [tagWords, List.mem_flatMap, List.mem_cons, List.not_mem_nil, or_false] at hw
      obtain ⟨e, he, rfl | rfl⟩ := hw
      · exact (hx e he).1
      · exact (hx e he).2
    rw [FField.bytes] at hfit h ⊢
    rw [featStep_tags P hP b skip l st _ _ s hw ((encBytes_length _ _).trans hfit) (resolveTags_pairs _ _ ps) h]
    simp [featAfter, FField.id?, FField.tags?, lastOr, FField.type?, FField.geometry?]
  | type t =>
    refine ⟨st.feat.geometryPos, ?_, fun _ => rfl, fun ws hw => by simp [FField.geometry?] at hw⟩
    rw [FField.bytes, featStep_type P hP b skip l st t s hx h]
    simp [featAfter, FField.id?, FField.tags?, lastOr, FField.type?, FField.geometry?]
  | geometry ws =>
    rw [FField.bytes] at hfit h
    have hl : (ws.flatMap encVarint).length < 9223372036854775808 := (encBytes_length _ _).trans hfit
    refine ⟨st.pos + 1, ?_, fun hn => by simp [FField.geometry?] at hn, ?_⟩
    · rw [FField.bytes, featStep_geom P hP b skip l st ws s hl h]
      simp [featAfter, FField.id?, FField.tags?, lastOr, FField.type?, FField.geometry?]
    · intro ws' he
      simp only [FField.geometry?, Option.some.injEq] at he
      subst he
      rw [encPacked, encBytes_app] at h
      rw [readPacked_at h.adv1 hx hl]
      rfl

include hP in
/-- All fields of a feature, in any order; if the reader skips `skip` bytes too many after a geometry, the geometry has to come last. -/
theorem featFields_run (skip : Int) (hsk : 0 ≤ skip) (n : Nat) (E : Int) : ∀ (fs : List FField) (st : FS), (skip = 0 ∨ GeomLast fs) → (∀ x ∈ fs, x.Ok) →
    (∀ x ∈ fs, (x.bytes P).length < 9223372036854775808) → fs.length < n → ∀ s, At b st.pos (featBytes P fs ++ s) → E = st.pos + (featBytes P fs).length →
    ∃ q gp, whileR (fun st : FS => decide (st.pos < E)) (fun st => Res.of (featLoopBody P b skip l st)) n st =
      .ok ⟨q, featAfter l st.feat gp fs⟩ ∧
      (fs.filterMap FField.geometry? = [] → gp = st.feat.geometryPos) ∧
      ∀ ws, (fs.filterMap FField.geometry?).getLast? = some ws → (readPacked b gp).map (·.1) = some ws := by
  induction n with
  | zero => intro fs st _ _ _ h; omega
  | succ n ih =>
    intro fs st hgl hok hfit hn s hat hE
    cases fs with
    | nil =>
      refine ⟨E, st.feat.geometryPos, ?_, fun _ => rfl, fun ws hw => by simp at hw⟩
      simp [featBytes] at hE
      rw [whileR, if_neg (by simp [hE])]
      subst hE
      simp [featAfter, lastOr]
    | cons x fs =>
      have hpos : 0 < (x.bytes P).length := by cases x <;> simp [FField.bytes, encUInt, encPacked, encBytes]
      have hb : featBytes P (x :: fs) = x.bytes P ++ featBytes P fs := rfl
      rw [hb, List.append_assoc] at hat
      rw [hb, List.length_append] at hE
      obtain ⟨gp, h1, h2, h3⟩ := featField_step P hP b l skip st x (hok x (by simp)) _ (hfit x (by simp)) hat
      rcases fs with _ | ⟨y, fs⟩
      · refine ⟨st.pos + (x.bytes P).length + (if x.geometry?.isSome then skip else 0), gp, ?_, fun hnil => ?_, fun ws hw => ?_⟩
        · rw [whileR, if_pos (by simp; push_cast at hE; omega), h1, Res.of_some, Res.bind_ok]
          simp only [featBytes, List.flatMap_nil, List.length_nil, Nat.add_zero] at hE
          have : ¬ st.pos + (x.bytes P).length + (if x.geometry?.isSome then skip else 0) < E := by
            split <;> omega
          cases n with
          | zero => simp at hn
          | succ n => rw [whileR, if_neg (by simpa using this)]
        · apply h2
          cases hx : x.geometry? with
          | none => rfl
          | some v => simp [hx] at hnil
        · apply h3
          cases hx : x.geometry? with
          | none => simp [hx] at hw
          | some v => simpa [hx] using hw
      have hz : (if x.geometry?.isSome then skip else 0) = 0 := by
        rcases hgl with h0 | hg
        · simp [h0]
        · rw [hg x (by simp)]; rfl
      rw [hz, add_zero] at h1
      generalize hfs : y :: fs = gs at *
      obtain ⟨q, gp', h4, h5, h6⟩ := ih gs ⟨st.pos + (x.bytes P).length, featAfter l st.feat gp [x]⟩
        (hgl.imp_right (fun hg y hy => hg y (by subst hfs; simp [List.dropLast] at hy ⊢; exact Or.inr hy))) (fun y hy => hok y (by simp [hy]))
        (fun y hy => hfit y (by simp [hy])) (by simpa using hn) s hat.adv (by push_cast at hE; simp only; omega)
      refine ⟨q, gp', ?_, ?_, ?_⟩
      · rw [whileR, if_pos (by simp; push_cast at hE; omega), h1, Res.of_some, Res.bind_ok, h4]
        congr 2
        unfold featAfter
        simp only
        congr 1
        · rw [show x :: gs = [x] ++ gs from rfl, List.filterMap_append, List.getLast?_append]
          cases (gs.filterMap FField.id?).getLast? <;> simp
        · simp [List.flatMap_cons]
        · rw [show x :: gs = [x] ++ gs from rfl, lastOr_append]
      · intro hnil
        have hx : x.geometry? = none := by
          cases hx : x.geometry? with
          | none => rfl
          | some v => simp [List.filterMap_cons, hx] at hnil
        rw [List.filterMap_cons, hx] at hnil
        rw [h5 hnil]; exact h2 hx
      · intro ws hw
        rw [show x :: gs = [x] ++ gs from rfl, List.filterMap_append, List.getLast?_append] at hw
        cases hl : (gs.filterMap FField.geometry?).getLast? with
        | some v => rw [hl] at hw; simp at hw; subst hw; exact h6 _ hl
        | none =>
          rw [hl] at hw
          have hnil : gs.filterMap FField.geometry? = [] := by simpa using hl
          rw [h5 hnil]
          cases hx : x.geometry? with
          | none => simp [hx] at hw
          | some v => simp [hx] at hw; subst hw; exact h3 _ hx

include hP in
/-- A feature message read lazily. -/
theorem readFeature_fields (n : Nat) (fs : List FField) (p : Int) (hok : ∀ x ∈ fs, x.Ok) (hfit : (featBytes P fs).length < 9223372036854775808)
    (hn : fs.length < n) (h : FeatAt b p (featBytes P fs)) :
    ∃ f, readFeature P b true n l p = .ok f ∧ FeatureIs b l fs f := by
  obtain ⟨s, h⟩ := h
  have hf : ∀ x ∈ fs, (x.bytes P).length < 9223372036854775808 := fun x hx =>
    lt_of_le_of_lt (flatMap_length_mem (FField.bytes P) fs x hx) hfit
  obtain ⟨_, gp, h1, _, h3⟩ := featFields_run P hP b l 0 le_rfl n (p + (encVarint (featBytes P fs).length).length + (featBytes P fs).length) fs
    ⟨p + (encVarint (featBytes P fs).length).length, ⟨0, [], 0, 0, 0⟩⟩ (.inl rfl) hok hf hn s h.adv rfl
  refine ⟨{ featAfter l ⟨0, [], 0, 0, 0⟩ gp fs with extent := l.extent }, ?_, ?_, rfl, rfl, by simp [featAfter], ?_⟩
  · unfold readFeature readFeatureFrom
    rw [readVarint_at h hfit, Res.of_some, Res.bind_ok]
    simp only [if_true]
    rw [h1, Res.bind_ok]
  · simp only [featAfter, lastOr]
    cases (fs.filterMap FField.id?).getLast? <;> simp
  · intro ws hw
    exact h3 ws hw

end feat

/-! ## Layer messages -/

section layer
variable (P : Proto) (nc : NumCodec) (hP : P.Good) (hnc : nc.Law) (b : Bytes) (p e : Int)

/-- Which test of the loop takes the field. -/
def LField.rank : LField → Nat
  | .name _ => 0 | .feature _ => 1 | .key _ => 2 | .value _ _ => 3 | .sint _ _ => 3 | .extent _ => 4 | .version _ => 5

/-- Tag number and wire type of a field, by rank. -/
def rankTag (P : Proto) : Nat → Nat × Nat
  | 0 => (P.name, 2) | 1 => (P.features, 2) | 2 => (P.keys, 2) | 3 => (P.values, 2) | 4 => (P.extent, 0) | _ => (P.version, 0)

/-- The state after the fields `done`. -/
def LInv (done : List LField) (st : LS) : Prop :=
  ∃ ps, st.layer = ⟨lastOr [] LField.name? done, (lastOr 0 LField.extent? done : Nat), (lastOr 0 LField.version? done : Nat),
      done.filterMap LField.key?, done.filterMap LField.value?, ps, p, e⟩ ∧
    List.Forall₂ (FeatAt b) ps ((done.filterMap LField.feature?).map (featBytes P)) ∧ st.names = done.filterMap LField.name?

theorem LField.bytes_head (x : LField) : ∃ r, x.bytes P nc = tagByte (rankTag P x.rank).1 (rankTag P x.rank).2 :: r ∧ r ≠ [] := by
  have h : ∀ v, encVarint v ≠ [] := encVarint_ne_nil
  cases x <;> simp [LField.bytes, LField.rank, rankTag, encBytes, encUInt, h]

theorem rankTag_wire (i : Nat) : (rankTag P i).2 < 8 := by
  unfold rankTag; split <;> simp

include hP in
theorem rankTag_inj (i j : Nat) (hi : i < 6) (hj : j < 6) (hne : i ≠ j) : (rankTag P i).1 ≠ (rankTag P j).1 := by
  have hd := hP.layer
  simp only [List.nodup_cons, List.mem_cons, List.not_mem_nil, or_false, not_or, List.nodup_nil, and_true, not_false_eq_true] at hd
  obtain ⟨⟨a1, a2, a3, a4, a5⟩, ⟨b1, b2, b3, b4⟩, ⟨c1, c2, c3⟩, ⟨d1, d2⟩, e0⟩ := hd
  have ci : i = 0 ∨ i = 1 ∨ i = 2 ∨ i = 3 ∨ i = 4 ∨ i = 5 := by omega
  have cj : j = 0 ∨ j = 1 ∨ j = 2 ∨ j = 3 ∨ j = 4 ∨ j = 5 := by omega
  rcases ci with rfl | rfl | rfl | rfl | rfl | rfl <;> rcases cj with rfl | rfl | rfl | rfl | rfl | rfl <;>
    first | exact absurd rfl hne | (simp only [rankTag]; assumption) | (simp only [rankTag]; apply Ne.symm; assumption)

theorem LField.rank_lt (x : LField) : x.rank < 6 := by cases x <;> simp [LField.rank]

include hP in
theorem noTag_field (x : LField) (s : Bytes) (i w : Nat) (hi : i < 6) (hne : x.rank ≠ i) :
    NoTag (x.bytes P nc ++ s) (rankTag P i).1 w := by
  obtain ⟨r, hr, _⟩ := x.bytes_head P nc
  rw [hr, List.cons_append]
  exact noTag_tagByte _ _ _ _ _ (rankTag_wire P _) (fun h => rankTag_inj P hP _ _ x.rank_lt hi hne h.1)

/-- The body that takes a field of rank `i`. -/
def rankBody (i : Nat) (st : LS) : Option LS :=
  match i with
  | 0 => (readString b st.pos).bind fun (s, q) =>
      (nextTag b st q { st.layer with name := s }).map fun st => { st with names := st.names ++ [s] }
  | 1 => featBody b st
  | 2 => keyBody b st
  | 3 => valBody P nc b st
  | 4 => (readVarint b st.pos).bind fun (v, q) => nextTag b st q { st.layer with extent := v }
  | _ => (readVarint b st.pos).bind fun (v, q) => nextTag b st q { st.layer with version := v }

include hP hnc in
/-- One field. -/
theorem field_step (x : LField) (hx : x.Ok) (hfit : (x.bytes P nc).length < 9223372036854775808) (done : List LField) (st : LS) (s : Bytes)
    (h : Rdy b st (x.bytes P nc ++ s)) (hi : LInv P b p e done st) :
    ∃ st', rankBody P nc b x.rank st = some st' ∧ Rdy b st' s ∧ LInv P b p e (done ++ [x]) st' := by
  obtain ⟨ps, hl, hps, hn⟩ := hi
  cases x with
  | name t =>
    rw [LField.bytes] at h hfit
    rw [encBytes_app] at h
    obtain ⟨h1, h2, h3⟩ := h.tag (by decide)
    obtain ⟨st', e1, e2, e3, e4⟩ := nextTag_at st { st.layer with name := t } (At.adv h3.adv)
    refine ⟨{ st' with names := st'.names ++ [t] }, ?_, ?_, ps, ?_, ?_, ?_⟩
    · simp only [rankBody, LField.rank]
      rw [readString_at h3 ((encBytes_length _ _).trans hfit)]
      simp only [Option.bind_some]
      rw [e1]; rfl
    · cases s <;> exact e2
    · simp only [e3, hl, lastOr_append]
      simp [lastOr, LField.name?, LField.extent?, LField.version?, LField.key?, LField.value?]
    · rw [List.filterMap_append, List.map_append]; exact (List.append_nil _).symm ▸ hps
    · simp [e4, hn, LField.name?]
  | feature fs =>
    rw [LField.bytes] at h hfit
    rw [encBytes_app] at h
    obtain ⟨h1, h2, h3⟩ := h.tag (by decide)
    obtain ⟨st', e1, e2, e3, e4⟩ := nextTag_at st { st.layer with features := st.layer.features ++ [st.pos] } (At.adv h3.adv)
    refine ⟨st', ?_, e2, ps ++ [st.pos], ?_, ?_, ?_⟩
    · simp only [rankBody, LField.rank, featBody]
      rw [readVarint_at h3 ((encBytes_length _ _).trans hfit)]
      simp only [Option.bind_some]
      rw [e1]
    · simp only [e3, hl, lastOr_append]
      simp [lastOr, LField.name?, LField.extent?, LField.version?, LField.key?, LField.value?]
    · rw [List.filterMap_append, List.map_append]
      exact List.rel_append hps (.cons ⟨_, h3⟩ .nil)
    · simp [e4, hn, LField.name?]
  | key t =>
    rw [LField.bytes] at h hfit
    rw [encBytes_app] at h
    obtain ⟨h1, h2, h3⟩ := h.tag (by decide)
    obtain ⟨st', e1, e2, e3, e4⟩ := nextTag_at st { st.layer with keys := st.layer.keys ++ [t] } (At.adv h3.adv)
    refine ⟨st', ?_, e2, ps, ?_, ?_, ?_⟩
    · simp only [rankBody, LField.rank, keyBody]
      rw [readString_at h3 ((encBytes_length _ _).trans hfit)]
      simp only [Option.bind_some]
      rw [e1]
    · simp only [e3, hl, lastOr_append]
      simp [lastOr, LField.name?, LField.extent?, LField.version?, LField.key?, LField.value?]
    · rw [List.filterMap_append, List.map_append]; exact (List.append_nil _).symm ▸ hps
    · simp [e4, hn, LField.name?]
  | value w v =>
    obtain ⟨hw, hv⟩ := hx
    rw [LField.bytes] at h hfit
    rw [encBytes_app, List.cons_append] at h
    obtain ⟨h1, h2, h3⟩ := h.tag (by decide)
    have h4 := h3.adv
    have h5 := h4.adv1
    obtain ⟨st', e1, e2, e3, e4⟩ := nextTag_at st { st.layer with values := st.layer.values ++ [stored v] } h5.adv
    refine ⟨st', ?_, e2, ps, ?_, ?_, ?_⟩
    · simp only [rankBody, LField.rank, valBody]
      rw [readVarint_at h3 ((encBytes_length _ _).trans hfit)]
      simp only [Option.bind_some]
      rw [readTag_at h4]
      simp only [Option.bind_some]
      have et : tagByte (writeValue P nc v).1 w / 8 = (writeValue P nc v).1 := by unfold tagByte; omega
      rw [et, readVal_at P nc hP hnc b _ v _ hv h5]
      simp only [Option.bind_some, Option.toList_some]
      rw [e1]
    · simp only [e3, hl, lastOr_append]
      simp [lastOr, LField.name?, LField.extent?, LField.version?, LField.key?, LField.value?]
    · rw [List.filterMap_append, List.map_append]; exact (List.append_nil _).symm ▸ hps
    · simp [e4, hn, LField.name?]
  | sint w v =>
    obtain ⟨hw, hv⟩ := hx
    rw [LField.bytes] at h hfit
    rw [encBytes_app, List.cons_append] at h
    obtain ⟨h1, h2, h3⟩ := h.tag (by decide)
    have h4 := h3.adv
    have h5 := h4.adv1
    obtain ⟨st', e1, e2, e3, e4⟩ := nextTag_at st { st.layer with values := st.layer.values ++ [.uint v] } h5.adv
    have hd := hP.val
    simp only [List.nodup_cons, List.mem_cons, List.not_mem_nil, or_false, not_or, List.nodup_nil, and_true, not_false_eq_true] at hd
    obtain ⟨⟨a1, a2, a3, a4, a5, a6⟩, ⟨b1, b2, b3, b4, b5⟩, ⟨c1, c2, c3, c4⟩, ⟨d1, d2, d3⟩, ⟨f1, f2⟩, g1⟩ := hd
    refine ⟨st', ?_, e2, ps, ?_, ?_, ?_⟩
    · simp only [rankBody, LField.rank, valBody]
      rw [readVarint_at h3 ((encBytes_length _ _).trans hfit)]
      simp only [Option.bind_some]
      rw [readTag_at h4]
      simp only [Option.bind_some]
      have et : tagByte P.vSInt w / 8 = P.vSInt := by unfold tagByte; omega
      have hr : readVal P nc b P.vSInt (st.pos + ((encVarint (tagByte P.vSInt w :: nc.encUInt v).length).length : Int) + 1) =
          some (some (.uint v), st.pos + ((encVarint (tagByte P.vSInt w :: nc.encUInt v).length).length : Int) + 1 + (nc.encUInt v).length) := by
        unfold readVal
        rw [if_neg (Ne.symm a5), if_neg (Ne.symm b4), if_neg (Ne.symm c3), if_neg (Ne.symm d2), if_neg (Ne.symm f1), if_pos rfl]
        simp only [h5.suffix, Option.bind_some, hnc.uint v s hv]
        rfl
      rw [et, hr]
      simp only [Option.bind_some, Option.toList_some]
      rw [e1]
    · simp only [e3, hl, lastOr_append]
      simp [lastOr, LField.name?, LField.extent?, LField.version?, LField.key?, LField.value?]
    · rw [List.filterMap_append, List.map_append]; exact (List.append_nil _).symm ▸ hps
    · simp [e4, hn, LField.name?]
  | extent v =>
    have hx : v < 9223372036854775808 := hx
    rw [LField.bytes] at h hfit
    rw [encUInt_app] at h
    obtain ⟨h1, h2, h3⟩ := h.tag (by decide)
    obtain ⟨st', e1, e2, e3, e4⟩ := nextTag_at st { st.layer with extent := v } h3.adv
    refine ⟨st', ?_, e2, ps, ?_, ?_, ?_⟩
    · simp only [rankBody, LField.rank]
      rw [readVarint_at h3 hx]
      simp only [Option.bind_some]
      rw [e1]
    · simp only [e3, hl, lastOr_append]
      simp [lastOr, LField.name?, LField.extent?, LField.version?, LField.key?, LField.value?]
    · rw [List.filterMap_append, List.map_append]; exact (List.append_nil _).symm ▸ hps
    · simp [e4, hn, LField.name?]
  | version v =>
    have hx : v < 9223372036854775808 := hx
    rw [LField.bytes] at h hfit
    rw [encUInt_app] at h
    obtain ⟨h1, h2, h3⟩ := h.tag (by decide)
    obtain ⟨st', e1, e2, e3, e4⟩ := nextTag_at st { st.layer with version := v } h3.adv
    refine ⟨st', ?_, e2, ps, ?_, ?_, ?_⟩
    · simp only [rankBody, LField.rank]
      rw [readVarint_at h3 hx]
      simp only [Option.bind_some]
      rw [e1]
    · simp only [e3, hl, lastOr_append]
      simp [lastOr, LField.name?, LField.extent?, LField.version?, LField.key?, LField.value?]
    · rw [List.filterMap_append, List.map_append]; exact (List.append_nil _).symm ▸ hps
    · simp [e4, hn, LField.name?]

/-- What a stage of the loop does to the fields that are left. -/
def StageTo (i : Nat) (done fs : List LField) (s : Bytes) (st' : LS) : Prop :=
  ∃ fs1 fs2, fs = fs1 ++ fs2 ∧ Rdy b st' (msgBytes P nc fs2 ++ s) ∧ LInv P b p e (done ++ fs1) st' ∧ (∀ x ∈ fs1, x.rank = i) ∧
    (∀ x, fs.head? = some x → x.rank = i → fs1 ≠ [])

/-- Either what follows the message does not look like a field of rank `i`, or the stage cannot get there. -/
def StageStop (i : Nat) (fs : List LField) (s : Bytes) : Prop :=
  (∀ w, NoTag s (rankTag P i).1 w) ∨ ∃ x, fs.getLast? = some x ∧ x.rank ≠ i

include hP in
theorem stage_no (i : Nat) (hi : i < 6) (fs : List LField) (s : Bytes) (st : LS) (h : Rdy b st (msgBytes P nc fs ++ s))
    (hs : StageStop P i fs s) (hh : ∀ x, fs.head? = some x → x.rank ≠ i) (w : Nat) : ¬ (st.key = (rankTag P i).1 ∧ st.wire = w) := by
  cases fs with
  | nil =>
    rcases hs with hs | ⟨x, hx, _⟩
    · exact Rdy.no (by simpa [msgBytes] using h) (hs w)
    · simp at hx
  | cons x fs =>
    have : msgBytes P nc (x :: fs) ++ s = x.bytes P nc ++ (msgBytes P nc fs ++ s) := by simp [msgBytes]
    rw [this] at h
    exact h.no (noTag_field P nc hP x _ i w hi (hh x rfl))

theorem rdy_field {st : LS} (x : LField) (s : Bytes) (h : Rdy b st (x.bytes P nc ++ s)) :
    st.key = (rankTag P x.rank).1 ∧ st.wire = (rankTag P x.rank).2 := by
  obtain ⟨r, hr, _⟩ := x.bytes_head P nc
  rw [hr, List.cons_append] at h
  obtain ⟨h1, h2, _⟩ := h.tag (rankTag_wire P _)
  exact ⟨h1, h2⟩

theorem StageStop.tail {i : Nat} {x : LField} {fs : List LField} {s : Bytes} (h : StageStop P i (x :: fs) s) (hr : x.rank = i) : StageStop P i fs s := by
  rcases h with h | ⟨y, hy, hn⟩
  · exact .inl h
  · cases fs with
    | nil => simp at hy; subst hy; exact absurd hr hn
    | cons z fs => right; exact ⟨y, by rw [← hy, List.getLast?_cons_cons], hn⟩

include hP hnc in
/-- A `for` stage. -/
theorem stage_while (i : Nat) (hi : i < 6) (cond : LS → Bool) (hc1 : ∀ st, cond st = true → st.key = (rankTag P i).1)
    (hc2 : ∀ st, st.key = (rankTag P i).1 → st.wire = (rankTag P i).2 → cond st = true) (s : Bytes) :
    ∀ (fs : List LField) (n : Nat) (done : List LField) (st : LS), (∀ x ∈ fs, x.Ok) → (∀ x ∈ fs, (x.bytes P nc).length < 9223372036854775808) →
      fs.length < n → StageStop P i fs s → Rdy b st (msgBytes P nc fs ++ s) → LInv P b p e done st →
      ∃ st', whileR cond (fun st => Res.of (rankBody P nc b i st)) n st = .ok st' ∧ StageTo P nc b p e i done fs s st' := by
  intro fs
  induction fs with
  | nil =>
    intro n done st _ _ hn hs hr hinv
    obtain ⟨n, rfl⟩ : ∃ m, n = m + 1 := ⟨n - 1, by simp at hn; omega⟩
    have hno := fun w => stage_no P nc hP b i hi [] s st hr hs (by simp) w
    refine ⟨st, ?_, [], [], rfl, hr, by simpa using hinv, by simp, by simp⟩
    rw [whileR, if_neg]
    intro h; exact hno st.wire ⟨hc1 st h, rfl⟩
  | cons x fs ih =>
    intro n done st hok hfit hn hs hr hinv
    obtain ⟨n, rfl⟩ : ∃ m, n = m + 1 := ⟨n - 1, by simp at hn; omega⟩
    have hb : msgBytes P nc (x :: fs) ++ s = x.bytes P nc ++ (msgBytes P nc fs ++ s) := by simp [msgBytes]
    by_cases hx : x.rank = i
    · have hr' := hr
      rw [hb] at hr'
      obtain ⟨k1, k2⟩ := rdy_field P nc b x _ hr'
      obtain ⟨st1, e1, e2, e3⟩ := field_step P nc hP hnc b p e x (hok x (by simp)) (hfit x (by simp)) done st _ hr' hinv
      obtain ⟨st', f1, fs1, fs2, g1, g2, g3, g4, _⟩ := ih n (done ++ [x]) st1 (fun y hy => hok y (by simp [hy])) (fun y hy => hfit y (by simp [hy]))
        (by simpa using hn) (hs.tail P hx) e2 e3
      refine ⟨st', ?_, x :: fs1, fs2, by rw [g1]; rfl, g2, by simpa using g3, ?_, by simp⟩
      · rw [whileR, if_pos (hc2 st (by rw [← hx]; exact k1) (by rw [← hx]; exact k2)), ← hx, e1, Res.of_some, Res.bind_ok, hx]
        exact f1
      · intro y hy
        rcases List.mem_cons.mp hy with rfl | hy
        · exact hx
        · exact g4 y hy
    · have hno := fun w => stage_no P nc hP b i hi (x :: fs) s st hr hs (by simpa using hx) w
      refine ⟨st, ?_, [], x :: fs, rfl, hr, by simpa using hinv, by simp, by simpa using hx⟩
      rw [whileR, if_neg]
      intro h; exact hno st.wire ⟨hc1 st h, rfl⟩

include hP hnc in
/-- An `if` stage. -/
theorem stage_once (i : Nat) (hi : i < 6) (s : Bytes) (fs : List LField) (done : List LField) (st : LS) (hok : ∀ x ∈ fs, x.Ok)
    (hfit : ∀ x ∈ fs, (x.bytes P nc).length < 9223372036854775808) (hs : fs = [] → StageStop P i [] s) (hr : Rdy b st (msgBytes P nc fs ++ s))
    (hinv : LInv P b p e done st) :
    ∃ st', (if st.key = (rankTag P i).1 ∧ st.wire = (rankTag P i).2 then rankBody P nc b i st else some st) = some st' ∧
      StageTo P nc b p e i done fs s st' := by
  cases fs with
  | nil =>
    have hno := stage_no P nc hP b i hi [] s st hr (hs rfl) (by simp) (rankTag P i).2
    exact ⟨st, by rw [if_neg hno], [], [], rfl, hr, by simpa using hinv, by simp, by simp⟩
  | cons x fs =>
    have hb : msgBytes P nc (x :: fs) ++ s = x.bytes P nc ++ (msgBytes P nc fs ++ s) := by simp [msgBytes]
    by_cases hx : x.rank = i
    · have hr' := hr
      rw [hb] at hr'
      obtain ⟨k1, k2⟩ := rdy_field P nc b x _ hr'
      obtain ⟨st1, e1, e2, e3⟩ := field_step P nc hP hnc b p e x (hok x (by simp)) (hfit x (by simp)) done st _ hr' hinv
      refine ⟨st1, ?_, [x], fs, rfl, e2, e3, by simpa using hx, by simp⟩
      rw [← hx, if_pos ⟨k1, k2⟩, e1]
    · have hno : ¬ (st.key = (rankTag P i).1 ∧ st.wire = (rankTag P i).2) := by
        rw [hb] at hr
        exact hr.no (noTag_field P nc hP x _ i _ hi hx)
      exact ⟨st, by rw [if_neg hno], [], x :: fs, rfl, hr, by simpa using hinv, by simp, by simpa using hx⟩

/-- The last field of the message is taken by one of the last three tests. -/
def EndsLate (fs : List LField) : Prop := ∃ x, fs.getLast? = some x ∧ 3 ≤ x.rank

/-- The tests of the loop cannot run past the end of the message. -/
def Ends (fs : List LField) (s : Bytes) : Prop := (∀ i, i < 3 → ∀ w, NoTag s (rankTag P i).1 w) ∨ EndsLate fs

theorem EndsLate.drop {i : Nat} (hi : i < 3) {fs1 fs2 : List LField} (h : EndsLate (fs1 ++ fs2)) (hr : ∀ x ∈ fs1, x.rank = i) : EndsLate fs2 := by
  obtain ⟨x, hx, h3⟩ := h
  cases fs2 with
  | nil =>
    rw [List.append_nil] at hx
    have := hr x (List.mem_of_getLast? hx)
    omega
  | cons y fs2 => exact ⟨x, by rw [List.getLast?_append] at hx; simpa using hx, h3⟩

/-- A pass over the fields cannot run past the end of the message, or the message ends with a version, whatever follows. -/
def Stops (fs : List LField) (s : Bytes) : Prop :=
  ((∀ i, 3 ≤ i → i < 6 → ∀ w, NoTag s (rankTag P i).1 w) ∧ Ends P fs s) ∨ ∃ x, fs.getLast? = some x ∧ x.rank = 5

theorem Ends.drop {i : Nat} (hi : i < 3) {fs1 fs2 : List LField} {s : Bytes} (h : Ends P (fs1 ++ fs2) s) (hr : ∀ x ∈ fs1, x.rank = i) : Ends P fs2 s :=
  h.imp id (fun h => h.drop hi hr)

theorem Stops.drop3 {i : Nat} (hi : i < 3) {fs1 fs2 : List LField} {s : Bytes} (h : Stops P (fs1 ++ fs2) s) (hr : ∀ x ∈ fs1, x.rank = i) : Stops P fs2 s := by
  rcases h with ⟨h1, h2⟩ | ⟨x, hx, h5⟩
  · exact .inl ⟨h1, h2.drop P hi hr⟩
  · right
    cases fs2 with
    | nil =>
      rw [List.append_nil] at hx
      have := hr x (List.mem_of_getLast? hx)
      omega
    | cons y fs2 => exact ⟨x, by rw [List.getLast?_append] at hx; simpa using hx, h5⟩

/-- What is left to know for the last three tests. -/
def StopsLate (fs : List LField) (s : Bytes) : Prop :=
  (∀ i, 3 ≤ i → i < 6 → ∀ w, NoTag s (rankTag P i).1 w) ∨ ∃ x, fs.getLast? = some x ∧ x.rank = 5

theorem StopsLate.drop {i : Nat} (hi : i < 5) {fs1 fs2 : List LField} {s : Bytes} (h : StopsLate P (fs1 ++ fs2) s) (hr : ∀ x ∈ fs1, x.rank = i) :
    StopsLate P fs2 s := by
  rcases h with h | ⟨x, hx, h5⟩
  · exact .inl h
  · right
    cases fs2 with
    | nil =>
      rw [List.append_nil] at hx
      have := hr x (List.mem_of_getLast? hx)
      omega
    | cons y fs2 => exact ⟨x, by rw [List.getLast?_append] at hx; simpa using hx, h5⟩

include hP hnc in
/-- One pass over a message that is not finished takes at least one field. -/
theorem pass_fields (n : Nat) (aw : Bool) (s : Bytes) (fs done : List LField) (st : LS)
    (hok : ∀ x ∈ fs, x.Ok) (hfit : ∀ x ∈ fs, (x.bytes P nc).length < 9223372036854775808) (hn : fs.length < n)
    (hne : Stops P fs s) (hfs0 : fs ≠ []) (hr : Rdy b st (msgBytes P nc fs ++ s)) (hinv : LInv P b p e done st) :
    ∃ st' fs1 fs2, layerPass P nc b n aw st = .ok st' ∧ fs = fs1 ++ fs2 ∧ fs1 ≠ [] ∧ (fs2 = [] ∨ Stops P fs2 s) ∧
      Rdy b st' (msgBytes P nc fs2 ++ s) ∧ LInv P b p e (done ++ fs1) st' := by
  have early : ∀ (i : Nat), i < 3 → ∀ fs : List LField, Stops P fs s → StageStop P i fs s := by
    rintro i hi fs (⟨_, h | ⟨x, hx, h3⟩⟩ | ⟨x, hx, h3⟩)
    · exact .inl (h i hi)
    · exact .inr ⟨x, hx, by omega⟩
    · exact .inr ⟨x, hx, by omega⟩
  have late : ∀ (i : Nat), 3 ≤ i → i < 5 → ∀ fs : List LField, StopsLate P fs s → StageStop P i fs s := by
    rintro i h1 h2 fs (h | ⟨x, hx, h5⟩)
    · exact .inl (h i h1 (by omega))
    · exact .inr ⟨x, hx, by omega⟩
  have sub : ∀ {a c d : List LField}, a = c ++ d → (∀ x ∈ a, x.Ok) → ∀ x ∈ d, x.Ok := fun h1 h2 x hx => h2 x (by rw [h1]; simp [hx])
  have subf : ∀ {a c d : List LField}, a = c ++ d → (∀ x ∈ a, (x.bytes P nc).length < 9223372036854775808) →
      ∀ x ∈ d, (x.bytes P nc).length < 9223372036854775808 := fun h1 h2 x hx => h2 x (by rw [h1]; simp [hx])
  have len : ∀ {a c d : List LField}, a = c ++ d → d.length ≤ a.length := fun h1 => by rw [h1]; simp
  obtain ⟨st0, q0, a0, r0, p0, y0, z0, w0, v0⟩ := stage_once P nc hP hnc b p e 0 (by decide) s fs done st hok hfit (fun h => h ▸ early 0 (by decide) _ hne) hr hinv
  have E0 : Stops P r0 s := by rw [p0] at hne; exact hne.drop3 P (by decide) w0
  obtain ⟨st1, q1, a1, r1, p1, y1, z1, w1, v1⟩ := stage_while P nc hP hnc b p e 1 (by decide) (fun st => decide (st.key = P.features ∧ st.wire = 2))
    (by intro st h; simp at h; exact h.1) (by intro st h1 h2; simpa [rankTag] using ⟨h1, h2⟩) s r0 n _ st0 (sub p0 hok) (subf p0 hfit)
    (by have := len p0; omega) (early 1 (by decide) _ E0) y0 z0
  have E1 : Stops P r1 s := by rw [p1] at E0; exact E0.drop3 P (by decide) w1
  obtain ⟨st2, q2, a2, r2, p2, y2, z2, w2, v2⟩ := stage_while P nc hP hnc b p e 2 (by decide) (fun st => decide (st.key = P.keys ∧ st.wire = 2))
    (by intro st h; simp at h; exact h.1) (by intro st h1 h2; simpa [rankTag] using ⟨h1, h2⟩) s r1 n _ st1 (sub p1 (sub p0 hok)) (subf p1 (subf p0 hfit))
    (by have := len p0; have := len p1; omega) (early 2 (by decide) _ E1) y1 z1
  have E2 : Stops P r2 s := by rw [p2] at E1; exact E1.drop3 P (by decide) w2
  have F2 : StopsLate P r2 s := E2.imp (fun h => h.1) id
  have ok2 := sub p2 (sub p1 (sub p0 hok))
  have fit2 := subf p2 (subf p1 (subf p0 hfit))
  obtain ⟨st3, q3, a3, r3, p3, y3, z3, w3, v3⟩ := stage_while P nc hP hnc b p e 3 (by decide) (fun st => decide (st.key = P.values ∧ (aw = true ∨ st.wire = 2)))
    (by intro st h; simp at h; exact h.1) (by intro st h1 h2; simpa [rankTag] using ⟨h1, Or.inr h2⟩) s r2 n _ st2 ok2 fit2
    (by have := len p0; have := len p1; have := len p2; omega) (late 3 (by decide) (by decide) _ F2) y2 z2
  have F3 : StopsLate P r3 s := by rw [p3] at F2; exact F2.drop P (by decide) w3
  have ok3 := sub p3 ok2
  have fit3 := subf p3 fit2
  obtain ⟨st4, q4, a4, r4, p4, y4, z4, w4, v4⟩ := stage_once P nc hP hnc b p e 4 (by decide) s r3 _ st3 ok3 fit3 (fun h => h ▸ late 4 (by decide) (by decide) _ F3) y3 z3
  have F4 : StopsLate P r4 s := by rw [p4] at F3; exact F3.drop P (by decide) w4
  have ok4 := sub p4 ok3
  have fit4 := subf p4 fit3
  obtain ⟨st5, q5, a5, r5, p5, y5, z5, w5, v5⟩ := stage_once P nc hP hnc b p e 5 (by decide) s r4 _ st4 ok4 fit4 (by
    intro h
    rcases F4 with h5 | ⟨x, hx, _⟩
    · exact .inl (h5 5 (by decide) (by decide))
    · rw [h] at hx; simp at hx) y4 z4
  have hfs : fs = (a0 ++ a1 ++ a2 ++ a3 ++ a4 ++ a5) ++ r5 := by rw [p0, p1, p2, p3, p4, p5]; simp only [List.append_assoc]
  refine ⟨st5, a0 ++ a1 ++ a2 ++ a3 ++ a4 ++ a5, r5, ?_, hfs, ?_, ?_, y5, ?_⟩
  · unfold layerPass
    have e0 : passName P b st = some st0 := q0
    rw [e0, Res.of_some, Res.bind_ok]
    have e1 : whileR (fun st : LS => decide (st.key = P.features ∧ st.wire = 2)) (fun st => Res.of (featBody b st)) n st0 = .ok st1 := q1
    rw [e1, Res.bind_ok]
    have e2 : whileR (fun st : LS => decide (st.key = P.keys ∧ st.wire = 2)) (fun st => Res.of (keyBody b st)) n st1 = .ok st2 := q2
    rw [e2, Res.bind_ok]
    have e3 : whileR (fun st : LS => decide (st.key = P.values ∧ (aw = true ∨ st.wire = 2))) (fun st => Res.of (valBody P nc b st)) n st2 = .ok st3 := q3
    rw [e3, Res.bind_ok]
    have e4 : passExtent P b st3 = some st4 := q4
    rw [e4, Res.of_some, Res.bind_ok]
    have e5 : passVersion P b st4 = some st5 := q5
    rw [e5, Res.of_some]
  · -- progress
    intro hnil
    simp only [List.append_eq_nil_iff] at hnil
    obtain ⟨⟨⟨⟨⟨rfl, rfl⟩, rfl⟩, rfl⟩, rfl⟩, rfl⟩ := hnil
    simp only [List.nil_append] at p0 p1 p2 p3 p4 p5
    subst p5 p4 p3 p2 p1 p0
    cases fs with
    | nil => exact hfs0 rfl
    | cons y fs =>
      have hy := y.rank_lt
      have : y.rank = 0 ∨ y.rank = 1 ∨ y.rank = 2 ∨ y.rank = 3 ∨ y.rank = 4 ∨ y.rank = 5 := by omega
      rcases this with h | h | h | h | h | h
      · exact v0 y rfl h rfl
      · exact v1 y rfl h rfl
      · exact v2 y rfl h rfl
      · exact v3 y rfl h rfl
      · exact v4 y rfl h rfl
      · exact v5 y rfl h rfl
  · cases hr5 : r5 with
    | nil => exact .inl rfl
    | cons y r =>
      right
      rcases hne with ⟨h0, hne | ⟨x, hx, h3⟩⟩ | ⟨x, hx, h3⟩
      · exact .inl ⟨h0, .inl hne⟩
      · refine .inl ⟨h0, .inr ⟨x, ?_, h3⟩⟩
        rw [hfs, hr5, List.getLast?_append] at hx
        simpa using hx
      · refine .inr ⟨x, ?_, h3⟩
        rw [hfs, hr5, List.getLast?_append] at hx
        simpa using hx
  · have : done ++ (a0 ++ a1 ++ a2 ++ a3 ++ a4 ++ a5) = done ++ a0 ++ a1 ++ a2 ++ a3 ++ a4 ++ a5 := by simp only [List.append_assoc]
    rw [this]; exact z5

theorem endsLate_of_closed {m : List LField} (h : Closed m) : EndsLate m := by
  obtain ⟨f, hf, h1, h2, h3⟩ := h
  refine ⟨f, hf, ?_⟩
  cases f <;> simp [LField.name?, LField.feature?, LField.key?, LField.rank] at *

include hP hnc in
/-- The loop over a whole message. -/
theorem layer_run (n : Nat) (aw : Bool) (s : Bytes) :
    ∀ (k : Nat) (fs done : List LField) (st : LS) (m : Nat), fs.length ≤ k → k < m → (∀ x ∈ fs, x.Ok) →
      (∀ x ∈ fs, (x.bytes P nc).length < 9223372036854775808) → fs.length < n → (fs = [] ∨ Stops P fs s) → Rdy b st (msgBytes P nc fs ++ s) →
      (∃ q, At b q (msgBytes P nc fs ++ s) ∧ e = q + (msgBytes P nc fs).length) → LInv P b p e done st →
      ∃ st', whileR (fun st : LS => decide (st.pos < e)) (layerPass P nc b n aw) m st = .ok st' ∧ LInv P b p e (done ++ fs) st' := by
  intro k
  induction k with
  | zero =>
    intro fs done st m hk hm _ _ _ _ hr ⟨q, hq, he⟩ hinv
    have : fs = [] := List.length_eq_zero_iff.mp (by omega)
    subst this
    obtain ⟨m, rfl⟩ : ∃ j, m = j + 1 := ⟨m - 1, by omega⟩
    refine ⟨st, ?_, by simpa using hinv⟩
    rw [whileR, if_neg]
    simp only [msgBytes, List.flatMap_nil, List.nil_append, List.length_nil, Nat.cast_zero, add_zero] at hr hq he
    have hp := hq.pos
    cases s with
    | nil => have := hr.2.2.pos; simp at this hp ⊢; omega
    | cons x s => have := hr.2.2.pos; simp at this hp ⊢; omega
  | succ k ih =>
    intro fs done st m hk hm hok hfit hn hel hr hq hinv
    by_cases hnil : fs = []
    · exact ih fs done st m (by simp [hnil]) (by omega) hok hfit hn hel hr hq hinv
    · have hE : Stops P fs s := hel.resolve_left hnil
      obtain ⟨st', fs1, fs2, h1, h2, h3, h4, h5, h6⟩ := pass_fields P nc hP hnc b p e n aw s fs done st hok hfit hn hE hnil hr hinv
      obtain ⟨m, rfl⟩ : ∃ j, m = j + 1 := ⟨m - 1, by omega⟩
      have hl1 : 0 < fs1.length := List.length_pos_of_ne_nil h3
      have hl : fs.length = fs1.length + fs2.length := by rw [h2]; simp
      obtain ⟨q, hq, he⟩ := hq
      have hmb : msgBytes P nc fs = msgBytes P nc fs1 ++ msgBytes P nc fs2 := by rw [h2]; simp [msgBytes]
      have hq2 : At b (q + (msgBytes P nc fs1).length) (msgBytes P nc fs2 ++ s) := by
        rw [hmb, List.append_assoc] at hq; exact hq.adv
      obtain ⟨st'', g1, g2⟩ := ih fs2 (done ++ fs1) st' m (by omega) (by omega) (fun x hx => hok x (by rw [h2]; simp [hx]))
        (fun x hx => hfit x (by rw [h2]; simp [hx])) (by omega) h4 h5
        ⟨_, hq2, by rw [he, hmb, List.length_append]; push_cast; ring⟩ h6
      refine ⟨st'', ?_, by rw [h2, ← List.append_assoc]; exact g2⟩
      rw [whileR, if_pos, h1, Res.bind_ok]
      · exact g1
      · -- the current tag's payload is not yet read
        cases fs with
        | nil => exact absurd rfl hnil
        | cons x fs =>
          obtain ⟨r, hb, hr0⟩ := x.bytes_head P nc
          have hb' : msgBytes P nc (x :: fs) ++ s = tagByte (rankTag P x.rank).1 (rankTag P x.rank).2 :: (r ++ (msgBytes P nc fs ++ s)) := by
            simp [msgBytes, hb]
          have hlen : (msgBytes P nc (x :: fs)).length = r.length + 1 + (msgBytes P nc fs).length := by
            simp only [msgBytes, List.flatMap_cons, hb, List.length_append, List.length_cons]
          rw [hb'] at hr hq
          obtain ⟨_, _, hat⟩ := hr.tag (rankTag_wire P _)
          have c1 := hat.pos
          have c2 := hq.pos
          have c3 := List.length_pos_of_ne_nil hr0
          simp only [List.length_append, List.length_cons] at c1 c2
          simp only [decide_eq_true_eq]
          rw [he, hlen]
          push_cast at c1 c2 ⊢
          omega

include hP hnc in
/-- Reading a layer message. -/
theorem newLayer_fields (m : List LField) (hm : MsgOk P nc m) (s : Bytes) (hend : Stops P m s)
    (h : At b p (msgBytes P nc m ++ s)) (n : Nat) (hn : (msgBytes P nc m).length < n) (aw : Bool) :
    ∃ ps ext, newLayer P nc b n aw p (p + (msgBytes P nc m).length) =
        .ok (⟨lastOr [] LField.name? m, ext, (lastOr 0 LField.version? m : Nat), m.filterMap LField.key?, m.filterMap LField.value?, ps, p,
          p + (msgBytes P nc m).length⟩, m.filterMap LField.name?) ∧
      ext = (if lastOr 0 LField.extent? m = 0 then 4096 else (lastOr 0 LField.extent? m : Nat)) ∧
      List.Forall₂ (FeatAt b) ps ((m.filterMap LField.feature?).map (featBytes P)) := by
  have hml : m.length ≤ (msgBytes P nc m).length :=
    flatMap_length_ge _ _ (fun x _ => by obtain ⟨r, hr, _⟩ := x.bytes_head P nc; rw [hr]; simp)
  have hfit : ∀ x ∈ m, (x.bytes P nc).length < 9223372036854775808 := fun x hx =>
    lt_of_le_of_lt (flatMap_length_mem (LField.bytes P nc) m x hx) hm.fits
  set E := p + ((msgBytes P nc m).length : Int) with hE
  obtain ⟨st0, q1, r0, l0, m0⟩ := nextTag_at ⟨0, 0, 0, ⟨[], 0, 0, [], [], [], p, E⟩, []⟩ ⟨[], 0, 0, [], [], [], p, E⟩ h
  have hinv : LInv P b p E [] st0 := ⟨[], by rw [l0]; simp [lastOr], .nil, by rw [m0]; rfl⟩
  obtain ⟨st', g1, ps, g2, g3, g4⟩ := layer_run P nc hP hnc b p E n aw s m.length m [] st0 n le_rfl (by omega) hm.ok hfit (by omega)
    (.inr hend) r0 ⟨p, h, rfl⟩ hinv
  simp only [List.nil_append] at g2 g3 g4
  refine ⟨ps, _, ?_, rfl, g3⟩
  have hread : readTag b p = some (st0.key, st0.wire, st0.pos) := by
    unfold nextTag at q1
    cases hrt : readTag b p with
    | none => simp [hrt] at q1
    | some x =>
      obtain ⟨k, w, r⟩ := x
      simp [hrt] at q1
      rw [← q1]
  unfold newLayer
  rw [hread, Res.of_some, Res.bind_ok]
  simp only
  have est0 : (⟨st0.key, st0.wire, st0.pos, ⟨[], 0, 0, [], [], [], p, E⟩, []⟩ : LS) = st0 := by
    conv_lhs => rw [← l0]
    conv_lhs => rw [show ([] : List Bytes) = st0.names from m0.symm]
  rw [est0, g1, Res.bind_ok, g4, g2]
  congr 1
  simp only [Nat.cast_eq_zero]
  split <;> rfl

end layer

/-! ## Tiles -/

/-- A layer's own tag cannot be mistaken for a value, extent or version tag. -/
def LayerTagLate (P : Proto) : Prop := P.layers ≠ P.values ∧ P.layers ≠ P.extent ∧ P.layers ≠ P.version

theorem noTag_tileBytes (P : Proto) (nc : NumCodec) (hP : P.Good) (hL : LayerTagLate P) (t : List (List LField)) (i : Nat) (h3 : 3 ≤ i) (h6 : i < 6) (w : Nat) :
    NoTag (tileBytes P nc t) (rankTag P i).1 w := by
  cases t with
  | nil =>
    have := hP.small
    have ci : i = 3 ∨ i = 4 ∨ i = 5 := by omega
    rcases ci with rfl | rfl | rfl <;> simp only [tileBytes, List.flatMap_nil, NoTag, rankTag] <;> omega
  | cons m t =>
    have : tileBytes P nc (m :: t) = tagByte P.layers 2 :: (encVarint (msgBytes P nc m).length ++ (msgBytes P nc m ++ tileBytes P nc t)) := by
      simp [tileBytes, encBytes]
    rw [this]
    refine noTag_tagByte _ _ _ _ _ (by decide) (fun h => ?_)
    have ci : i = 3 ∨ i = 4 ∨ i = 5 := by omega
    rcases ci with rfl | rfl | rfl
    · exact hL.1 h.1
    · exact hL.2.1 h.1
    · exact hL.2.2 h.1

theorem msgOk_pos {P : Proto} {nc : NumCodec} {m : List LField} (h : MsgOk P nc m) : 0 < (msgBytes P nc m).length := by
  obtain ⟨f, hf⟩ := List.exists_mem_of_ne_nil _ h.ne
  have h1 := flatMap_length_mem (LField.bytes P nc) m f hf
  obtain ⟨r, hr, _⟩ := f.bytes_head P nc
  rw [hr] at h1
  simp only [List.length_cons] at h1
  unfold msgBytes
  omega

/-- Reading a tile of any writer. -/
theorem newTile_fields (P : Proto) (nc : NumCodec) (hP : P.Good) (hL : LayerTagLate P) (hnc : nc.Law) (t : List (List LField))
    (ht : ∀ m ∈ t, MsgOk P nc m) (hc : ∀ m ∈ t.dropLast, Closed m) (n : Nat) (hn : (tileBytes P nc t).length + 2 < n) :
    ∃ out, newTile P nc (tileBytes P nc t) n = .ok ⟨(tileBytes P nc t).length, out, t.flatMap (List.filterMap LField.name?)⟩ ∧
      List.Forall₂ (fun (m : List LField) (o : Layer) => LayerIs P n (tileBytes P nc t) m o ∧
        o.endPos = o.startPos + (msgBytes P nc m).length ∧ ∃ s, At (tileBytes P nc t) o.startPos (msgBytes P nc m ++ s)) t out := by
  set b := tileBytes P nc t with hb
  let R : List LField → Layer → Prop := fun m o => LayerIs P n b m o ∧
        o.endPos = o.startPos + (msgBytes P nc m).length ∧ ∃ s, At b o.startPos (msgBytes P nc m ++ s)
  have hll : t.length ≤ b.length := flatMap_length_ge _ _ (fun x _ => by simp [encBytes])
  have := whileR_list (fun st : TS => decide (st.pos < b.length)) (tileBody P nc b n)
    (fun xs st => ∃ done, t = done ++ xs ∧ At b st.pos (tileBytes P nc xs) ∧ List.Forall₂ R done st.layers ∧
      st.names = done.flatMap (List.filterMap LField.name?))
    (by
      rintro m xs st ⟨done, hd, hat, hfa, hnm⟩
      have hm : m ∈ t := by rw [hd]; simp
      have hcons : tileBytes P nc (m :: xs) = encBytes P.layers (msgBytes P nc m) ++ tileBytes P nc xs := rfl
      rw [hcons, encBytes_app] at hat
      have hfit := (ht m hm).fits
      have hends : Ends P m (tileBytes P nc xs) := by
        cases xs with
        | nil =>
          left
          intro i hi w
          have := hP.small
          have ci : i = 0 ∨ i = 1 ∨ i = 2 := by omega
          rcases ci with rfl | rfl | rfl <;> simp only [tileBytes, List.flatMap_nil, NoTag, rankTag] <;> omega
        | cons y xs =>
          right
          refine endsLate_of_closed (hc m ?_)
          rw [hd, List.dropLast_append_of_ne_nil (by simp)]
          simp
      have hlb : (msgBytes P nc m).length < b.length := by
        have h1 := flatMap_length_mem (fun m => encBytes P.layers (msgBytes P nc m)) t m hm
        have h2 := encBytes_length P.layers (msgBytes P nc m)
        exact lt_of_lt_of_le h2 h1
      have hpos := hat.pos
      simp only [List.length_cons] at hpos
      refine ⟨by simp only [decide_eq_true_eq]; omega, ?_⟩
      have h1 := hat.adv1
      obtain ⟨ps, ext, hnl, hext, hps⟩ := newLayer_fields P nc hP hnc b _ m (ht m hm) _ (.inl ⟨noTag_tileBytes P nc hP hL xs, hends⟩) h1.adv n (by omega) false
      have hsz : ((msgBytes P nc m).length : Int) ≠ 0 := by
        have := msgOk_pos (ht m hm)
        omega
      refine ⟨⟨st.pos + 1 + ((encVarint (msgBytes P nc m).length).length : Int) + (msgBytes P nc m).length,
        st.layers ++ [⟨lastOr [] LField.name? m, ext, (lastOr 0 LField.version? m : Nat), m.filterMap LField.key?, m.filterMap LField.value?, ps,
          st.pos + 1 + ((encVarint (msgBytes P nc m).length).length : Int), st.pos + 1 + ((encVarint (msgBytes P nc m).length).length : Int) + (msgBytes P nc m).length⟩],
        st.names ++ m.filterMap LField.name?⟩, ?_, done ++ [m], by simp [hd], ?_, ?_, ?_⟩
      rotate_left
      · exact At.adv h1.adv
      · refine List.rel_append hfa (.cons ⟨?_, ?_, _, h1.adv⟩ .nil)
        rotate_left
        · exact rfl
        refine ⟨rfl, hext, rfl, rfl, rfl, ?_⟩
        have hff : ∀ fs ∈ m.filterMap LField.feature?, (∀ x ∈ fs, x.Ok) ∧ (featBytes P fs).length < 9223372036854775808 ∧ fs.length < n := by
          intro fs hfs
          obtain ⟨x, hx, hxf⟩ := List.mem_filterMap.mp hfs
          have hxo := (ht m hm).ok x hx
          cases x <;> simp [LField.feature?] at hxf
          rw [hxf] at hx hxo
          have h2 := flatMap_length_mem (LField.bytes P nc) m _ hx
          rw [LField.bytes] at h2
          have h3 := encBytes_length P.features (featBytes P fs)
          unfold msgBytes at hfit hlb
          refine ⟨hxo, by omega, ?_⟩
          have h4 : fs.length ≤ (featBytes P fs).length :=
            flatMap_length_ge _ _ (fun x _ => by cases x <;> simp [FField.bytes, encUInt, encPacked, encBytes])
          omega
        rw [List.forall₂_map_right_iff] at hps
        clear hnl
        generalize m.filterMap LField.feature? = fss at hps hff
        simp only
        generalize hlay : (⟨lastOr [] LField.name? m, ext, (lastOr 0 LField.version? m : Nat), m.filterMap LField.key?, m.filterMap LField.value?, ps,
          st.pos + 1 + ((encVarint (msgBytes P nc m).length).length : Int), st.pos + 1 + ((encVarint (msgBytes P nc m).length).length : Int) + (msgBytes P nc m).length⟩ : Layer) = lay
        clear hlay
        induction hps with
        | nil => exact .nil
        | @cons p fs ps fss h1 _ ih =>
          obtain ⟨k1, k2, k3⟩ := hff fs (by simp)
          exact .cons (readFeature_fields P hP b lay n fs p k1 k2 k3 h1) (ih (fun fs hfs => hff fs (by simp [hfs])))
      · simp [hnm]
      · unfold tileBody
        rw [readTag_at hat, Res.of_some, Res.bind_ok]
        have e1 : tagByte P.layers 2 / 8 = P.layers := by unfold tagByte; omega
        have e2 : tagByte P.layers 2 % 8 = 2 := by unfold tagByte; omega
        simp only [e1, e2]
        rw [if_pos ⟨trivial, trivial⟩, readVarint_at h1 hfit, Res.of_some, Res.bind_ok]
        simp only
        rw [if_pos hsz, hnl, Res.bind_ok])
    (by
      rintro st ⟨done, hd, hat, _⟩
      have := hat.pos
      simp [tileBytes] at this
      simp; omega)
    t n ⟨0, [], []⟩ (by omega) ⟨[], rfl, At.zero b, .nil, rfl⟩
  obtain ⟨st, e, done, hd, hat, hfa, hnm⟩ := this
  have hd' : done = t := by simpa using hd.symm
  subst hd'
  refine ⟨st.layers, ?_, hfa⟩
  unfold newTile
  rw [e]
  have hp := hat.pos
  simp [tileBytes] at hp
  congr 1
  obtain ⟨p, ly, nm⟩ := st
  simp only at hp hnm ⊢
  rw [hnm, hp]

/-! ## ReadTile -/

section bulk
variable (P : Proto) (hP : P.Good) (b : Bytes) (L : Layer)

include hP in
/-- A feature message read in bulk. -/
theorem readFeatureFrom_fields (skip : Int) (hsk : 0 ≤ skip) (n : Nat) (c : Carry) (fs : List FField) (p : Int) (hgl : skip = 0 ∨ GeomLast fs) (hok : ∀ x ∈ fs, x.Ok)
    (hfit : (featBytes P fs).length < 9223372036854775808) (hn : fs.length < n) (h : FeatAt b p (featBytes P fs)) :
    ∃ gp, readFeatureFrom P b true skip n L ⟨c.id, [], c.geometryPos, c.geomInt, 0⟩ p =
        .ok { featAfter L ⟨c.id, [], c.geometryPos, c.geomInt, 0⟩ gp fs with extent := L.extent } ∧
      (fs.filterMap FField.geometry? = [] → gp = c.geometryPos) ∧
      ∀ ws, (fs.filterMap FField.geometry?).getLast? = some ws → (readPacked b gp).map (·.1) = some ws := by
  obtain ⟨s, h⟩ := h
  have hf : ∀ x ∈ fs, (x.bytes P).length < 9223372036854775808 := fun x hx =>
    lt_of_le_of_lt (flatMap_length_mem (FField.bytes P) fs x hx) hfit
  obtain ⟨_, gp, h1, h2, h3⟩ := featFields_run P hP b L skip hsk n (p + (encVarint (featBytes P fs).length).length + (featBytes P fs).length) fs
    ⟨p + (encVarint (featBytes P fs).length).length, ⟨c.id, [], c.geometryPos, c.geomInt, 0⟩⟩ hgl hok hf hn s h.adv rfl
  refine ⟨gp, ?_, h2, h3⟩
  unfold readFeatureFrom
  rw [readVarint_at h hfit, Res.of_some, Res.bind_ok]
  simp only [if_true]
  rw [h1, Res.bind_ok]

include hP in
theorem bulkFeatures_fields (skip : Int) (hsk : 0 ≤ skip) (n : Nat) (m : List LField) (hk : L.keys = m.filterMap LField.key?) (hv : L.values = m.filterMap LField.value?)
    (hnm : L.name = lastOr [] LField.name? m)
    (he : L.extent = (if lastOr 0 LField.extent? m = 0 then 4096 else (lastOr 0 LField.extent? m : Nat))) :
    ∀ (fss : List (List FField)) (acc : List FField) (c : Carry) (ps : List Int),
      (∀ fs ∈ fss, skip = 0 ∨ GeomLast fs) → (∀ fs ∈ fss, (∀ x ∈ fs, x.Ok) ∧ (featBytes P fs).length < 9223372036854775808 ∧ fs.length < n) →
      List.Forall₂ (fun p fs => FeatAt b p (featBytes P fs)) ps fss →
      (∀ x ∈ withPrefixes acc fss, ∃ g, ((x.1.filterMap FField.geometry?).getLast?).bind (loadGeometry (lastOr 0 FField.type? x.1)) = some g) →
      c.id = (lastOr 0 FField.id? acc : Nat) → c.geomInt = lastOr 0 FField.type? acc →
      (∀ ws, (acc.filterMap FField.geometry?).getLast? = some ws → (readPacked b c.geometryPos).map (·.1) = some ws) →
      ∃ os, bulkFeatures P b true skip n L c ps = .ok os ∧ List.Forall₂ (fun x o => BulkFeatureIs m x.1 x.2 o) (withPrefixes acc fss) os := by
  intro fss
  induction fss with
  | nil => intro acc c ps _ _ hps _ _ _ _; cases hps; exact ⟨[], rfl, .nil⟩
  | cons fs fss ih =>
    intro acc c ps hgl hok hps hg hid hty hgeo
    cases hps with
    | @cons p _ ps _ hp hps =>
    obtain ⟨o1, o2, o3⟩ := hok fs (by simp)
    obtain ⟨gp, r1, r2, r3⟩ := readFeatureFrom_fields P hP b L skip hsk n c fs p (hgl fs (by simp)) o1 o2 o3 hp
    set f : Feature := { featAfter L ⟨c.id, [], c.geometryPos, c.geomInt, 0⟩ gp fs with extent := L.extent } with hf
    have fid : f.id = (lastOr 0 FField.id? (acc ++ fs) : Nat) := by
      rw [lastOr_append]
      simp only [hf, featAfter, hid]
      unfold lastOr
      cases (fs.filterMap FField.id?).getLast? <;> simp
    have fty : f.geomInt = lastOr 0 FField.type? (acc ++ fs) := by
      rw [lastOr_append]
      simp only [hf, featAfter, hty]
    have fgeo : ∀ ws, ((acc ++ fs).filterMap FField.geometry?).getLast? = some ws → (readPacked b f.geometryPos).map (·.1) = some ws := by
      intro ws hw
      have hgp : f.geometryPos = gp := rfl
      rw [hgp]
      rw [List.filterMap_append, List.getLast?_append] at hw
      cases hl : (fs.filterMap FField.geometry?).getLast? with
      | some v => rw [hl] at hw; simp at hw; subst hw; exact r3 _ hl
      | none =>
        rw [hl] at hw
        have hnil : fs.filterMap FField.geometry? = [] := by simpa using hl
        rw [r2 hnil]
        exact hgeo ws (by simpa using hw)
    obtain ⟨g, hgg⟩ := hg (acc ++ fs, fs) (by simp [withPrefixes])
    simp only at hgg
    obtain ⟨ws, hw1, hw2⟩ := Option.bind_eq_some_iff.mp hgg
    have hload : loadGeom b f = some g := by
      unfold loadGeom loadRaw
      rw [fgeo ws hw1, Option.bind_some, fty, hw2]
    obtain ⟨os, i1, i2⟩ := ih (acc ++ fs) ⟨f.geometryPos, f.id, f.geomInt⟩ ps (fun x hx => hgl x (by simp [hx])) (fun x hx => hok x (by simp [hx])) hps
      (fun x hx => hg x (by simp [withPrefixes, hx])) fid fty fgeo
    refine ⟨⟨if f.id ≠ 0 then some f.id else none, f.props ++ [(layerKey, L.name)].map (fun e => (e.1, Val.str e.2)), g, L.extent⟩ :: os, ?_, .cons ⟨?_, ?_, ?_, ?_⟩ i2⟩
    · rw [bulkFeatures, r1, Res.bind_ok, hload, Res.of_some, Res.bind_ok, i1, Res.bind_ok]
    · simp only [fid]
      by_cases h0 : lastOr 0 FField.id? (acc ++ fs) = 0
      · simp [h0]
      · simp [h0]
    · simp only [hf, featAfter, List.nil_append, List.map_cons, List.map_nil, hnm, hk, hv, layerKey]
    · exact he
    · exact hgg

end bulk

/-- Reading a tile of any writer in bulk. -/
theorem readTile_fields (aw : Bool) (skip : Int) (hsk : 0 ≤ skip) (P : Proto) (nc : NumCodec) (hP : P.Good) (hL : LayerTagLate P) (hnc : nc.Law) (t : List (List LField))
    (ht : ∀ m ∈ t, MsgOk P nc m) (hc : ∀ m ∈ t.dropLast, Closed m) (hgl : ∀ m ∈ t, ∀ fs ∈ m.filterMap LField.feature?, skip = 0 ∨ GeomLast fs) (n : Nat) (hn : (tileBytes P nc t).length + 2 < n)
    (hgeo : ∀ m ∈ t, ∀ x ∈ withPrefixes [] (m.filterMap LField.feature?), ∃ g, ((x.1.filterMap FField.geometry?).getLast?).bind (loadGeometry (lastOr 0 FField.type? x.1)) = some g) :
    ∃ oss : List (List OutFeature), readTile P nc (tileBytes P nc t) true aw skip n = .ok oss.flatten ∧
      List.Forall₂ (fun m os => List.Forall₂ (fun x o => BulkFeatureIs m x.1 x.2 o) (withPrefixes [] (m.filterMap LField.feature?)) os) t oss := by
  set b := tileBytes P nc t with hb
  let R : List LField → List OutFeature → Prop := fun m os => List.Forall₂ (fun x o => BulkFeatureIs m x.1 x.2 o) (withPrefixes [] (m.filterMap LField.feature?)) os
  have hll : t.length ≤ b.length := flatMap_length_ge _ _ (fun x _ => by simp [encBytes])
  have := whileR_list (fun st : BS => decide (st.pos < b.length)) (bulkBody P nc b true aw skip n)
    (fun xs st => ∃ done oss, t = done ++ xs ∧ At b st.pos (tileBytes P nc xs) ∧ List.Forall₂ R done oss ∧ st.outs = oss.flatten)
    (by
      rintro m xs st ⟨done, oss, hd, hat, hfa, hnm⟩
      have hm : m ∈ t := by rw [hd]; simp
      have hcons : tileBytes P nc (m :: xs) = encBytes P.layers (msgBytes P nc m) ++ tileBytes P nc xs := rfl
      rw [hcons, encBytes_app] at hat
      have hfit := (ht m hm).fits
      have hends : Ends P m (tileBytes P nc xs) := by
        cases xs with
        | nil =>
          left
          intro i hi w
          have := hP.small
          have ci : i = 0 ∨ i = 1 ∨ i = 2 := by omega
          rcases ci with rfl | rfl | rfl <;> simp only [tileBytes, List.flatMap_nil, NoTag, rankTag] <;> omega
        | cons y xs =>
          right
          refine endsLate_of_closed (hc m ?_)
          rw [hd, List.dropLast_append_of_ne_nil (by simp)]
          simp
      have hlb : (msgBytes P nc m).length < b.length := by
        have h1 := flatMap_length_mem (fun m => encBytes P.layers (msgBytes P nc m)) t m hm
        have h2 := encBytes_length P.layers (msgBytes P nc m)
        exact lt_of_lt_of_le h2 h1
      have hpos := hat.pos
      simp only [List.length_cons] at hpos
      refine ⟨by simp only [decide_eq_true_eq]; omega, ?_⟩
      have h1 := hat.adv1
      obtain ⟨ps, ext, hnl, hext, hps⟩ := newLayer_fields P nc hP hnc b _ m (ht m hm) _ (.inl ⟨noTag_tileBytes P nc hP hL xs, hends⟩) h1.adv n (by omega) aw
      have hsz : ((msgBytes P nc m).length : Int) ≠ 0 := by
        have := msgOk_pos (ht m hm)
        omega
      have hff : ∀ fs ∈ m.filterMap LField.feature?, (∀ x ∈ fs, x.Ok) ∧ (featBytes P fs).length < 9223372036854775808 ∧ fs.length < n := by
        intro fs hfs
        obtain ⟨x, hx, hxf⟩ := List.mem_filterMap.mp hfs
        have hxo := (ht m hm).ok x hx
        cases x <;> simp [LField.feature?] at hxf
        rw [hxf] at hx hxo
        have h2 := flatMap_length_mem (LField.bytes P nc) m _ hx
        rw [LField.bytes] at h2
        have h3 := encBytes_length P.features (featBytes P fs)
        unfold msgBytes at hfit hlb
        refine ⟨hxo, by omega, ?_⟩
        have h4 : fs.length ≤ (featBytes P fs).length :=
          flatMap_length_ge _ _ (fun x _ => by cases x <;> simp [FField.bytes, encUInt, encPacked, encBytes])
        omega
      rw [List.forall₂_map_right_iff] at hps
      obtain ⟨os, q1, q2⟩ := bulkFeatures_fields P hP b ⟨lastOr [] LField.name? m, ext, (lastOr 0 LField.version? m : Nat), m.filterMap LField.key?, m.filterMap LField.value?, ps,
          st.pos + 1 + ((encVarint (msgBytes P nc m).length).length : Int), st.pos + 1 + ((encVarint (msgBytes P nc m).length).length : Int) + (msgBytes P nc m).length⟩
        skip hsk n m rfl rfl rfl hext (m.filterMap LField.feature?) [] ⟨0, 0, 0⟩ ps (hgl m hm) hff hps (hgeo m hm) (by simp [lastOr]) (by simp [lastOr]) (by simp)
      refine ⟨⟨st.pos + 1 + ((encVarint (msgBytes P nc m).length).length : Int) + (msgBytes P nc m).length, st.outs ++ os⟩, ?_, done ++ [m], oss ++ [os], by simp [hd], ?_, ?_, ?_⟩
      rotate_left
      · exact At.adv h1.adv
      · exact List.rel_append hfa (.cons q2 .nil)
      · simp [hnm]
      · unfold bulkBody
        rw [readTag_at hat, Res.of_some, Res.bind_ok]
        have e1 : tagByte P.layers 2 / 8 = P.layers := by unfold tagByte; omega
        have e2 : tagByte P.layers 2 % 8 = 2 := by unfold tagByte; omega
        simp only [e1, e2]
        rw [if_pos ⟨trivial, trivial⟩, readVarint_at h1 hfit, Res.of_some, Res.bind_ok]
        simp only
        rw [if_pos hsz, hnl, Res.bind_ok]
        simp only
        rw [q1, Res.bind_ok])
    (by
      rintro st ⟨done, oss, hd, hat, _⟩
      have := hat.pos
      simp [tileBytes] at this
      simp; omega)
    t n ⟨0, []⟩ (by omega) ⟨[], [], rfl, At.zero b, .nil, rfl⟩
  obtain ⟨st, e, done, oss, hd, hat, hfa, hnm⟩ := this
  have hd' : done = t := by simpa using hd.symm
  subst hd'
  refine ⟨oss, ?_, hfa⟩
  unfold readTile
  rw [e, Res.bind_ok, hnm]

end Verif.Mvt
