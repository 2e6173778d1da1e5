import Verif.Model.UrlParse
import Verif.Spec.UrlParse
import Verif.Props.ClientSession

/-!
# C102: the addresses of further pages
-/
namespace Verif.Client

open Verif.Doc

instance (b : Byte) : Decidable (NameChar b) := by unfold NameChar; infer_instance

/-! ### Bytes -/

theorem ne_of_notMem {sep : Byte} {a : Bytes} (h : sep ∉ a) : ∀ b ∈ a, decide (b ≠ sep) = true := by
  intro b hb
  rw [decide_eq_true_eq]
  rintro rfl
  exact h hb

theorem cut_at (sep : Byte) (a b : Bytes) (h : sep ∉ a) : cut sep (a ++ sep :: b) = (a, b) := by
  unfold cut
  rw [List.takeWhile_append_of_pos (ne_of_notMem h), List.dropWhile_append_of_pos (ne_of_notMem h)]
  simp

theorem cut_none (sep : Byte) (a : Bytes) (h : sep ∉ a) : cut sep a = (a, []) := by
  unfold cut
  have h1 := List.takeWhile_append_of_pos (l₂ := []) (ne_of_notMem h)
  have h2 := List.dropWhile_append_of_pos (l₂ := []) (ne_of_notMem h)
  rw [List.append_nil] at h1 h2
  rw [h1, h2]
  simp

theorem unhex_hex {b : Byte} {n : Nat} (h : HexByte b n) : unhex b = some n := by
  unfold unhex
  rcases h with ⟨h1, h2, h3⟩ | ⟨h1, h2, h3⟩ | ⟨h1, h2, h3⟩
  · rw [if_pos ⟨h1, h2⟩, h3]
  · rw [if_neg (by omega), if_neg (by omega), if_pos ⟨h1, h2⟩, h3]
  · rw [if_neg (by omega), if_pos ⟨h1, h2⟩, h3]

theorem hex_unhex {b : Byte} {n : Nat} (h : unhex b = some n) : HexByte b n := by
  unfold unhex at h
  unfold HexByte
  split at h
  · cases h; omega
  · split at h
    · cases h; omega
    · split at h
      · cases h; omega
      · cases h

theorem unescapePath_decodes {e s : Bytes} (h : Decodes e s) : unescapePath e = some s := by
  induction h with
  | nil => rfl
  | plain hb _ ih => rw [unescapePath.eq_def]; simp only; rw [if_neg hb, ih]; rfl
  | @pct h l b p q e s h1 h2 h3 _ ih =>
    rw [unescapePath.eq_def]
    simp only [unhex_hex h1, unhex_hex h2, ih, Option.map_some]
    rw [if_pos (by rfl)]
    congr 2
    apply Fin.ext
    rw [Fin.val_ofNat, Nat.mod_eq_of_lt (by omega)]
    omega

theorem decodes_unescapePath : ∀ (n : Nat) (e s : Bytes), e.length ≤ n → unescapePath e = some s → Decodes e s
  | _, [], s, _, h => by cases h; exact .nil
  | 0, _ :: _, _, hn, _ => by simp at hn
  | n + 1, b :: rest, s, hn, h => by
    rw [unescapePath.eq_def] at h
    simp only at h
    simp only [List.length_cons] at hn
    by_cases hb : b.val = 37
    · rw [if_pos hb] at h
      match rest, hn, h with
      | [], _, h => cases h
      | [_], _, h => cases h
      | x :: y :: rest', hn, h =>
        simp only at h
        simp only [List.length_cons] at hn
        cases hx : unhex x with
        | none => rw [hx] at h; cases h
        | some p =>
          cases hy : unhex y with
          | none => rw [hx, hy] at h; cases h
          | some q =>
            rw [hx, hy] at h
            simp only at h
            obtain ⟨t, ht, rfl⟩ := Option.map_eq_some_iff.1 h
            have e1 : b = 37 := Fin.ext hb
            have h1 := hex_unhex hx
            have h2 := hex_unhex hy
            have hp : p < 16 := by unfold HexByte at h1; omega
            have hq : q < 16 := by unfold HexByte at h2; omega
            rw [e1]
            refine .pct h1 h2 ?_ (decodes_unescapePath n rest' t (by omega) ht)
            rw [Fin.val_ofNat, Nat.mod_eq_of_lt (by omega)]
            omega
    · rw [if_neg hb] at h
      obtain ⟨t, ht, rfl⟩ := Option.map_eq_some_iff.1 h
      exact .plain hb (decodes_unescapePath n rest t (by omega) ht)

/-! ### The parts -/

theorem path_valid : ∀ b : Byte, PathChar b → ((lit "!$&'()*+,;=:@[]%").contains b || pathByte b) = true := by decide +kernel

theorem printPath_ok {p : Bytes} (h : Path p) : printPath p = some p := by
  obtain ⟨h1, h2, s, h3⟩ := h
  unfold printPath
  rw [unescapePath_decodes h3]
  simp only [Option.some.injEq]
  have hv : validEncoded p = true := by
    unfold validEncoded
    rw [List.all_eq_true]
    exact fun b hb => path_valid b (h2 b hb)
  by_cases he : s.flatMap escPathByte = p
  · rw [if_neg (by simp [he])]
    unfold escapedPath
    rw [if_neg, he]
    rintro rfl
    have e : lit "*" = [42] := by decide +kernel
    rw [e] at h3
    rcases h1 with rfl | ⟨r, rfl⟩
    · cases h3
    · cases h3
  · rw [if_pos]
    refine ⟨he, ?_, hv⟩
    rintro rfl
    cases h3
    exact he rfl

theorem name_host : ∀ b : Byte, NameChar b → hostByte b = true ∧ b.val ≠ 58 ∧ b.val ≠ 64 ∧ b.val ≠ 91 ∧ b.val ≠ 37 ∧ b.val ≠ 47 ∧ b.val ≠ 63 ∧
    b.val ≠ 35 ∧ 32 ≤ b.val ∧ b.val ≠ 127 := by decide +kernel

theorem digit_host : ∀ b : Byte, 48 ≤ b.val ∧ b.val ≤ 57 → hostByte b = true ∧ b.val ≠ 58 ∧ b.val ≠ 64 ∧ b.val ≠ 91 ∧ b.val ≠ 37 ∧ b.val ≠ 47 ∧
    b.val ≠ 63 ∧ b.val ≠ 35 ∧ 32 ≤ b.val ∧ b.val ≠ 127 := by decide +kernel

theorem colon_host : hostByte 58 = true := by decide +kernel

theorem path_plain : ∀ b : Byte, PathChar b → b.val ≠ 63 ∧ b.val ≠ 35 ∧ 32 ≤ b.val ∧ b.val ≠ 127 := by decide +kernel

theorem host_bytes {h : Bytes} (hh : Host h) : ∀ b ∈ h, hostByte b = true ∧ b.val ≠ 64 ∧ b.val ≠ 91 ∧ b.val ≠ 37 ∧ b.val ≠ 47 ∧ b.val ≠ 63 ∧
    b.val ≠ 35 ∧ 32 ≤ b.val ∧ b.val ≠ 127 := by
  obtain ⟨name, port, rfl, -, h1, h2⟩ := hh
  intro b hb
  rw [List.mem_append] at hb
  rcases hb with hb | hb
  · have := name_host b (h1 b hb); tauto
  · rcases h2 with rfl | ⟨ds, rfl, h3⟩
    · cases hb
    · rw [List.mem_cons] at hb
      rcases hb with rfl | hb
      · exact ⟨colon_host, by decide, by decide, by decide, by decide, by decide, by decide, by decide, by decide⟩
      · have := digit_host b (h3 b hb); tauto

theorem fromLastColon_none {s : Bytes} (h : ∀ b ∈ s, b.val ≠ 58) : fromLastColon s = none := by
  induction s with
  | nil => rfl
  | cons b s ih =>
    rw [fromLastColon, ih fun x hx => h x (by simp [hx])]
    simp only
    rw [if_neg (h b (by simp))]

theorem fromLastColon_at (a ds : Bytes) (h : ∀ b ∈ ds, b.val ≠ 58) : fromLastColon (a ++ (58 : Byte) :: ds) = some ((58 : Byte) :: ds) := by
  induction a with
  | nil => rw [List.nil_append, fromLastColon, fromLastColon_none h]; rfl
  | cons b a ih => rw [List.cons_append, fromLastColon, ih]

theorem flatMap_self {α : Type} (f : α → List α) (l : List α) (h : ∀ a ∈ l, f a = [a]) : l.flatMap f = l := by
  induction l with
  | nil => rfl
  | cons a l ih => rw [List.flatMap_cons, h a (by simp), ih fun b hb => h b (by simp [hb])]; rfl

theorem printHost_ok {h : Bytes} (hh : Host h) : printHost h = some h := by
  have hb := host_bytes hh
  have hport : ∀ p, fromLastColon h = some p → validOptionalPort p = true := by
    obtain ⟨name, port, rfl, -, h1, h2⟩ := hh
    rcases h2 with rfl | ⟨ds, rfl, h3⟩
    · rw [List.append_nil, fromLastColon_none fun b hb => (name_host b (h1 b hb)).2.1]
      rintro p ⟨⟩
    · rw [fromLastColon_at _ _ fun b hb => (digit_host b (h3 b hb)).2.1]
      rintro p ⟨⟩
      simp only [validOptionalPort, Bool.and_eq_true, List.all_eq_true]
      refine ⟨by decide, fun b hb => ?_⟩
      have := h3 b hb
      simp [isDigit, this.1, this.2]
  unfold printHost
  rw [if_pos, if_pos, flatMap_self]
  · intro b hx
    rw [if_pos (hb b hx).1]
  · rw [List.all_eq_true]
    intro b hx
    simp [(hb b hx).1]
  · split
    · rename_i p hp; exact hport p hp
    · rfl

theorem printAuthority_ok (other : Bytes → Option Bytes) {h : Bytes} (hh : Host h) : printAuthority other h = some h := by
  have hb := host_bytes hh
  unfold printAuthority
  rw [if_neg, printHost_ok hh]
  simp only [Bool.or_eq_true, List.contains_iff_mem, not_or]
  exact ⟨⟨fun hx => (hb _ hx).2.1 rfl, fun hx => (hb _ hx).2.2.1 rfl⟩, fun hx => (hb _ hx).2.2.2.1 rfl⟩

theorem scheme_bytes {scheme : Bytes} (h : scheme = lit "http" ∨ scheme = lit "https") :
    (∀ b ∈ scheme, 97 ≤ b.val ∧ b.val ≤ 122) ∧ scheme ≠ [] := by
  rcases h with rfl | rfl <;> decide +kernel

theorem written_bytes {written scheme : Bytes} (h : AnyCase written scheme) (hs : ∀ b ∈ scheme, 97 ≤ b.val ∧ b.val ≤ 122) :
    (∀ b ∈ written, isLetter b = true) ∧ lower written = scheme ∧ (written = [] → scheme = []) := by
  unfold AnyCase at h
  induction h with
  | nil => exact ⟨by simp, rfl, fun _ => rfl⟩
  | @cons a b w s hab _ ih =>
    obtain ⟨ih1, ih2, -⟩ := ih fun x hx => hs x (by simp [hx])
    have hb := hs b (by simp)
    refine ⟨?_, ?_, by simp⟩
    · intro x hx
      rw [List.mem_cons] at hx
      rcases hx with rfl | hx
      · rcases hab with rfl | hab
        · simp [isLetter, hb.1, hb.2]
        · have h1 : 65 ≤ x.val := by omega
          have h2 : x.val ≤ 90 := by omega
          simp [isLetter, h1, h2]
      · exact ih1 x hx
    · rw [← ih2]
      unfold lower
      rw [List.map_cons]
      congr 1
      rcases hab with rfl | hab
      · rw [if_neg]
        simp only [Bool.and_eq_true, decide_eq_true_eq]
        omega
      · rw [if_pos]
        · apply Fin.ext
          rw [Fin.val_ofNat]
          omega
        · simp only [Bool.and_eq_true, decide_eq_true_eq]
          omega

theorem schemeLoop_letters (raw rest : Bytes) : ∀ (w acc : Bytes), (∀ b ∈ w, isLetter b = true) → acc ++ w ≠ [] →
    schemeLoop raw acc (w ++ (58 : Byte) :: rest) = some (acc ++ w, rest)
  | [], acc, _, hne => by
    rw [List.append_nil] at hne
    simp [schemeLoop, isLetter, isDigit, hne]
  | b :: w, acc, hw, _ => by
    rw [List.cons_append, schemeLoop, if_pos (hw b (by simp)),
      schemeLoop_letters raw rest w (acc ++ [b]) (fun x hx => hw x (by simp [hx])) (by simp)]
    simp

theorem getScheme_ok {written scheme : Bytes} (h : scheme = lit "http" ∨ scheme = lit "https") (hw : AnyCase written scheme) (rest : Bytes) :
    getScheme (written ++ (58 : Byte) :: rest) = some (written, rest) ∧ lower written = scheme ∧ written ≠ [] := by
  obtain ⟨h1, h2⟩ := scheme_bytes h
  obtain ⟨g1, g2, g3⟩ := written_bytes hw h1
  have hne : written ≠ [] := fun e => h2 (g3 e)
  refine ⟨?_, g2, hne⟩
  unfold getScheme
  rw [schemeLoop_letters _ _ _ _ g1 (by simpa using hne)]
  rfl

theorem takeWhile_host {h p : Bytes} (hh : Host h) (hp : p = [] ∨ ∃ r, p = (47 : Byte) :: r) :
    (h ++ p).takeWhile (· ≠ 47) = h ∧ (h ++ p).dropWhile (· ≠ 47) = p := by
  have hb : ∀ b ∈ h, decide (b ≠ 47) = true := by
    intro b hx
    have := (host_bytes hh b hx).2.2.2.2.1
    rw [decide_eq_true_eq]
    rintro rfl
    exact this rfl
  constructor
  · rw [List.takeWhile_append_of_pos hb]
    rcases hp with rfl | ⟨r, rfl⟩ <;> simp
  · rw [List.dropWhile_append_of_pos hb]
    rcases hp with rfl | ⟨r, rfl⟩ <;> simp

/-- What is before the query in a well-formed address. -/
structure Front (wr sc ho pa te ba : Bytes) : Prop where
  scheme : sc = lit "http" ∨ sc = lit "https"
  written : AnyCase wr sc
  host : Host ho
  path : Path pa
  text : te = wr ++ (58 : Byte) :: 47 :: 47 :: (ho ++ pa)
  base : ba = sc ++ (58 : Byte) :: 47 :: 47 :: (ho ++ pa)

theorem sep_eq : lit "://" = [58, 47, 47] := by decide +kernel

theorem letter_plain : ∀ b : Byte, isLetter b = true → b.val ≠ 63 ∧ b.val ≠ 35 ∧ 32 ≤ b.val ∧ b.val ≠ 127 := by decide +kernel

theorem Front.bytes {written scheme host path text base : Bytes} (h : Front written scheme host path text base) :
    ∀ b ∈ text, b.val ≠ 63 ∧ b.val ≠ 35 ∧ 32 ≤ b.val ∧ b.val ≠ 127 := by
  intro b hb
  rw [h.text] at hb
  simp only [List.mem_append, List.mem_cons] at hb
  rcases hb with hb | rfl | rfl | rfl | hb | hb
  · exact letter_plain b ((written_bytes h.written (scheme_bytes h.scheme).1).1 b hb)
  · decide
  · decide
  · decide
  · have := host_bytes h.host b hb; tauto
  · have := path_plain b (h.path.2.1 b hb); tauto

theorem parseUrl_ok (other : Bytes → Option Bytes) {written scheme host path text base : Bytes} (h : Front written scheme host path text base) (q query : Bytes)
    (hq : q = (63 : Byte) :: query ∨ q = [] ∧ query = []) (hqq : Query query) : parseUrl other (text ++ q) = some ⟨base, query⟩ := by
  have hb := h.bytes
  have hqb : ∀ b ∈ q, 32 ≤ b.val ∧ b.val ≠ 127 := by
    rcases hq with rfl | ⟨rfl, -⟩
    · intro b hx
      rw [List.mem_cons] at hx
      rcases hx with rfl | hx
      · decide
      · exact ⟨(hqq b hx).1, (hqq b hx).2.1⟩
    · intro b hx; cases hx
  have hctl : hasCTL (text ++ q) = false := by
    unfold hasCTL
    rw [List.any_eq_false]
    intro b hx
    rw [List.mem_append] at hx
    have : 32 ≤ b.val ∧ b.val ≠ 127 := by
      rcases hx with hx | hx
      · exact (hb b hx).2.2
      · exact hqb b hx
    simp [this.1, this.2]
  obtain ⟨g1, g2, g3⟩ := getScheme_ok h.scheme h.written (47 :: 47 :: (host ++ path) ++ q)
  have e1 : text ++ q = written ++ (58 : Byte) :: (47 :: 47 :: (host ++ path) ++ q) := by rw [h.text]; simp
  have hcut : cut 63 (47 :: 47 :: (host ++ path) ++ q) = (47 :: 47 :: (host ++ path), query) := by
    have hn : (63 : Byte) ∉ (47 : Byte) :: 47 :: (host ++ path) := by
      intro hx
      exact (hb 63 (by rw [h.text]; exact List.mem_append_right _ (List.mem_cons_of_mem _ hx))).1 rfl
    rcases hq with rfl | ⟨rfl, rfl⟩
    · exact cut_at 63 _ query hn
    · rw [List.append_nil]; exact cut_none 63 _ hn
  have hstar : text ++ q ≠ lit "*" := by
    intro e
    have := congrArg List.length e
    have e2 : (lit "*").length = 1 := by decide +kernel
    rw [e2, h.text] at this
    simp at this
    omega
  have hne : host ≠ [] := by
    obtain ⟨name, port, rfl, hn, -⟩ := h.host
    simp [hn]
  have s1 : lit "//" = [47, 47] := by decide +kernel
  have s2 : lit ":" = [58] := by decide +kernel
  obtain ⟨t1, t2⟩ := takeWhile_host h.host h.path.1
  unfold parseUrl
  rw [if_neg (by rw [hctl]; simp), if_neg hstar, e1, g1]
  simp only [hcut, g2, s1, s2]
  rw [if_neg (by simp), if_neg (by simp), if_pos (by simp [g3])]
  have d : (47 :: 47 :: (host ++ path) : Bytes).drop 2 = host ++ path := rfl
  simp only [d, t1, t2, printAuthority_ok other h.host, printPath_ok h.path]
  rw [if_neg g3, if_pos (Or.inl g3), if_pos (Or.inl hne), h.base]
  simp

/-- **C102.** An address of the kind RFC 3986 describes, with `http` or `https` (in capitals or not), a host and perhaps a port, is parsed, and what the
client then sends its request to is the same address byte by byte, the scheme in small letters, up to the query. -/
theorem C102_parse (other : Bytes → Option Bytes) (addr : Bytes) (u : Url) (h : Address addr u) : goParse other addr = some u := by
  obtain ⟨written, scheme, host, path, q, f, h1, hw, h2, h3, h4, rfl, h6, h7, h8⟩ := h
  obtain ⟨text, ht⟩ : ∃ text, text = written ++ lit "://" ++ host ++ path := ⟨_, rfl⟩
  have hf : Front written scheme host path text u.base := ⟨h1, hw, h2, h3, by rw [ht, sep_eq]; simp, by rw [h6, sep_eq]; simp⟩
  rw [← ht]
  have hnot : (35 : Byte) ∉ text ++ q := by
    rw [List.mem_append]
    rintro (hx | hx)
    · exact (hf.bytes 35 hx).2.1 rfl
    · rcases h7 with rfl | ⟨rfl, -⟩
      · rw [List.mem_cons] at hx
        rcases hx with hx | hx
        · exact absurd hx (by decide)
        · exact (h4 35 hx).2.2 rfl
      · cases hx
  have key : ∀ r, (∃ s, unescapePath r = some s) → cut 35 (text ++ q ++ f) = (text ++ q, r) → goParse other (text ++ q ++ f) = some u := by
    rintro r ⟨s, hs⟩ e
    unfold goParse
    rw [e]
    simp only [parseUrl_ok other hf q u.rawQuery h7 h4, hs, Option.isSome_some, if_true]
  rcases h8 with rfl | ⟨r, s, rfl, hd⟩
  · exact key [] ⟨[], rfl⟩ (by rw [List.append_nil]; exact cut_none 35 _ hnot)
  · exact key r ⟨s, unescapePath_decodes hd⟩ (cut_at 35 _ r hnot)

/-- **C102.** A Link header with such an address and the word "next" makes the client go on with exactly that address. -/
theorem C102_next (other : Bytes → Option Bytes) (link addr : Bytes) (u : Url) (hl : LinksTo link addr) (ha : Address addr u) :
    nextPageURL (goParse other) link = .page u := by
  obtain ⟨pre, post, rfl, h1, h2, h3, h4⟩ := hl
  rw [C49_next (goParse other) pre addr post h1 h2 h3 h4, C102_parse other addr u ha]

theorem linked_chain {α : Type} {c : Codec α} {token : Bytes} {net : Net} {hist reqs : List Url} {u : Url} {pages : List (List α)}
    (other : Bytes → Option Bytes) (h : Linked c token net hist u pages reqs) : Chain c (goParse other) token net hist u pages reqs := by
  induction h with
  | last h1 h2 h3 => exact .last h1 h2 h3
  | more h1 h2 h3 h4 _ ih => exact .more h1 h2 h3 (C102_parse other _ _ h4) ih

/-- **C102.** With the library's own parser of addresses, `ListStyles` and `ListTilesets` return what the linked pages of the server hold, in
order, with one request per page, each sent to the address the page before it named. -/
theorem C102_lists {short : ℚ → Str} (hs : JText.Prints short) (other : Bytes → Option Bytes) (user token : Bytes) (net : Net) :
    (∀ draft (pages : List (List ListStyle)) reqs, (∀ p ∈ pages, ∀ x ∈ p, x.Valid) →
      Linked listStyleC token net [] ⟨address (listStylesPath user), listStylesQuery draft⟩ pages reqs →
      reqs.length = pages.length ∧ ∀ n, pages.length ≤ n → listStyles (goParse other) user token net draft n = (.ok pages.flatten, reqs)) ∧
    (∀ (p : ListTilesetsParams) (pages : List (List Tileset)) reqs, (∀ p ∈ pages, ∀ x ∈ p, x.Valid) →
      Linked (tilesetC short) token net [] ⟨address (listTilesetsPath user), listTilesetsQuery p.printed⟩ pages reqs →
      reqs.length = pages.length ∧ ∀ n, pages.length ≤ n →
        listTilesets short (goParse other) user token net p n = (.ok pages.flatten, reqs)) := by
  obtain ⟨h1, h2⟩ := C99_lists hs (goParse other) user token net
  exact ⟨fun draft pages reqs hv h => h1 draft pages reqs hv (linked_chain other h),
    fun p pages reqs hv h => h2 p pages reqs hv (linked_chain other h)⟩

theorem anyCase_self (s : Bytes) : AnyCase s s := by
  unfold AnyCase
  induction s with
  | nil => exact .nil
  | cons b s ih => exact .cons (.inl rfl) ih

theorem query_legal : ∀ b : Byte, QueryChar b → 32 ≤ b.val ∧ b.val ≠ 127 ∧ b.val ≠ 35 := by decide +kernel

/-- **C102.** `http.NewRequest` parses the printed address again, and gets the address back: for the first request of every call, and for the
request to every address a page has named. -/
theorem C102_sent (other : Bytes → Option Bytes) :
    (∀ u path, AsksFor u path → goParse other u.print = some u) ∧
    (∀ addr u token, Address addr u → goParse other (addAuthentication token u).print = some (addAuthentication token u)) := by
  constructor
  · rintro u path ⟨⟨e, h1, h2, h3⟩, h4, h5⟩
    refine C102_parse other _ _ ⟨lit "https", lit "https", lit "api.mapbox.com", (47 : Byte) :: e, (63 : Byte) :: u.rawQuery, [], .inr rfl, anyCase_self _, ?_, ?_, ?_, ?_, ?_,
      .inl rfl, .inl rfl⟩
    · refine ⟨lit "api.mapbox.com", [], by simp, by decide +kernel, by decide +kernel, .inl rfl⟩
    · refine ⟨.inr ⟨e, rfl⟩, ?_, _, .plain (by decide) h2⟩
      intro b hb
      rw [List.mem_cons] at hb
      rcases hb with rfl | hb
      · decide +kernel
      · exact h3 b hb
    · intro b hb; exact query_legal b (h5 b hb)
    · have e1 : lit "https://api.mapbox.com/" = lit "https" ++ lit "://" ++ lit "api.mapbox.com" ++ [47] := by decide +kernel
      unfold Url.print
      rw [if_neg h4, h1, e1]
      simp
    · have e1 : lit "https://api.mapbox.com/" = lit "https" ++ lit "://" ++ lit "api.mapbox.com" ++ [47] := by decide +kernel
      rw [h1, e1]
      simp
  · rintro addr u token ⟨written, scheme, host, path, q, f, h1, hw, h2, h3, h4, -, h6, -, -⟩
    obtain ⟨h7, h8⟩ := auth_chars token u
    refine C102_parse other _ _ ⟨scheme, scheme, host, path, (63 : Byte) :: (addAuthentication token u).rawQuery, [], h1, anyCase_self _, h2, h3, ?_, ?_, h6, .inl rfl, .inl rfl⟩
    · intro b hb; exact query_legal b (h8 b hb)
    · unfold Url.print
      rw [if_neg h7]
      have : (addAuthentication token u).base = u.base := rfl
      rw [this, h6]
      simp

/-- **C102, the token goes wherever the server says.** Whatever host the first answer names, the second request goes to it with the user's token;
the other parameters are those of the address. -/
theorem C102_token {α : Type} (other : Bytes → Option Bytes) (token : Bytes) (srv : Server α) (u u' : Url) (page : List α) (link addr : Bytes)
    (h1 : srv [addAuthentication token u] = .ok page link) (h2 : LinksTo link addr) (h3 : Address addr u') (n : Nat) :
    ∃ r, (listLoop (goParse other) token srv (n + 2) [] [] u).2[1]? = some r ∧ r.base = u'.base ∧ token ∈ r.param "access_token" ∧
      ∀ k, lit k ≠ lit "access_token" → r.param k = u'.param k := by
  refine ⟨addAuthentication token u', ?_, rfl, ?_, fun k hk => auth_param token u' k hk⟩
  · have key : ∀ (n : Nat) (all : List α) (a b : Url) (t : List Url) (v : Url),
        (listLoop (goParse other) token srv n all (a :: b :: t) v).2[1]? = some b := by
      intro n
      induction n with
      | zero => intros; rfl
      | succ n ih =>
        intro all a b t v
        rw [listLoop]
        simp only [List.cons_append]
        split
        · rfl
        · split
          · rfl
          · rfl
          · rw [ih]
    rw [listLoop]
    simp only [List.nil_append, h1, C102_next other link addr u' h2 h3]
    rw [listLoop]
    simp only [List.cons_append, List.nil_append]
    split
    · rfl
    · split
      · rfl
      · rfl
      · rw [key]
  · have := (C48_authentication token u').2.1
    unfold Url.param
    rw [this]
    simp

/-- **C102, what is refused.** An address with a control character (before any fragment), one that begins with a colon, and one whose path has a
broken percent-encoding. -/
theorem C102_refused (other : Bytes → Option Bytes) :
    (∀ a b (c : Byte), (35 : Byte) ∉ a → c.val < 32 ∨ c.val = 127 → goParse other (a ++ c :: b) = none) ∧
    (∀ a, goParse other ((58 : Byte) :: a) = none) ∧
    (∀ scheme host path, scheme = lit "http" ∨ scheme = lit "https" → Host host → (∃ r, path = (47 : Byte) :: r) →
      (∀ b ∈ path, PathChar b) → (¬ ∃ s, Decodes path s) → goParse other (scheme ++ lit "://" ++ host ++ path) = none) := by
  refine ⟨?_, ?_, ?_⟩
  · intro a b c ha hc
    have e : ∃ t, (cut 35 (a ++ c :: b)).1 = a ++ c :: t := by
      unfold cut
      rw [List.takeWhile_append_of_pos (ne_of_notMem ha)]
      have : decide (c ≠ 35) = true := by
        rw [decide_eq_true_eq]
        rintro rfl
        rcases hc with hc | hc
        · exact absurd hc (by decide)
        · exact absurd hc (by decide)
      rw [List.takeWhile_cons, this]
      exact ⟨_, rfl⟩
    obtain ⟨t, ht⟩ := e
    unfold goParse parseUrl
    rw [ht, if_pos]
    unfold hasCTL
    rw [List.any_eq_true]
    refine ⟨c, by simp, ?_⟩
    simpa using hc
  · intro a
    have e : ∃ t, (cut 35 ((58 : Byte) :: a)).1 = (58 : Byte) :: t := by
      unfold cut
      rw [List.takeWhile_cons]
      exact ⟨_, rfl⟩
    obtain ⟨t, ht⟩ := e
    unfold goParse parseUrl
    rw [ht]
    have g : getScheme ((58 : Byte) :: t) = none := by
      unfold getScheme
      simp [schemeLoop, isLetter, isDigit]
    have s1 : (58 : Byte) :: t ≠ lit "*" := by
      have e1 : lit "*" = [42] := by decide +kernel
      rw [e1]
      simp
    split
    · rfl
    · rename_i u hu
      split at hu
      · cases hu
      · rw [g] at hu
        cases hu
  · intro scheme host path h1 h2 h3 h4 h5
    have hb := host_bytes h2
    have hall : ∀ b ∈ scheme ++ lit "://" ++ host ++ path, b.val ≠ 63 ∧ b.val ≠ 35 := by
      intro b hx
      rw [sep_eq] at hx
      simp only [List.mem_append, List.mem_cons, List.not_mem_nil, or_false] at hx
      rcases hx with ((hx | rfl | rfl | rfl) | hx) | hx
      · have := (scheme_bytes h1).1 b hx; omega
      · decide
      · decide
      · decide
      · have := hb b hx; tauto
      · have := path_plain b (h4 b hx); tauto
    have hc : cut 35 (scheme ++ lit "://" ++ host ++ path) = (scheme ++ lit "://" ++ host ++ path, []) :=
      cut_none 35 _ fun hx => (hall 35 hx).2 rfl
    obtain ⟨g1, g2, g3⟩ := getScheme_ok h1 (anyCase_self _) (47 :: 47 :: (host ++ path))
    have e1 : scheme ++ lit "://" ++ host ++ path = scheme ++ (58 : Byte) :: (47 :: 47 :: (host ++ path)) := by rw [sep_eq]; simp
    have hcut : cut 63 (47 :: 47 :: (host ++ path)) = (47 :: 47 :: (host ++ path), []) := by
      refine cut_none 63 _ fun hx => (hall 63 ?_).1 rfl
      rw [e1]
      exact List.mem_append_right _ (List.mem_cons_of_mem _ hx)
    have s1 : lit "//" = [47, 47] := by decide +kernel
    obtain ⟨t1, t2⟩ := takeWhile_host h2 (.inr h3)
    have hp : printPath path = none := by
      unfold printPath
      cases hu : unescapePath path with
      | none => rfl
      | some s => exact absurd ⟨s, decodes_unescapePath _ _ _ (le_refl _) hu⟩ h5
    unfold goParse
    rw [hc]
    have : parseUrl other (scheme ++ lit "://" ++ host ++ path) = none := by
      unfold parseUrl
      split
      · rfl
      · split
        · rename_i h
          rw [e1] at h
          have := congrArg List.length h
          have e2 : (lit "*").length = 1 := by decide +kernel
          rw [e2] at this
          simp at this
          omega
        · rw [e1, g1]
          simp only [hcut, s1]
          rw [if_neg (by simp), if_neg (by simp), if_pos (by simp [g3])]
          have d : (47 :: 47 :: (host ++ path) : Bytes).drop 2 = host ++ path := rfl
          simp only [d, t1, t2, printAuthority_ok other h2, hp]
    simp only [this]

/-- **C102, pages are lost without an error.** If the next address is one that the library refuses, the list ends there as if it were complete. -/
theorem C102_silent_loss {α : Type} (other : Bytes → Option Bytes) (token : Bytes) (srv : Server α) (u : Url) (page : List α) (link addr : Bytes)
    (h1 : srv [addAuthentication token u] = .ok page link) (h2 : LinksTo link addr) (h3 : goParse other addr = none) (n : Nat) :
    listLoop (goParse other) token srv (n + 1) [] [] u = (.ok page, [addAuthentication token u]) := by
  obtain ⟨pre, post, rfl, g1, g2, g3, g4⟩ := h2
  rw [listLoop]
  simp only [List.nil_append, h1, C49_next (goParse other) pre addr post g1 g2 g3 g4, h3]

/-- **C102, relative addresses.** A next address without a host is accepted, but not completed with the host of the page: the request has none
(and the transport refuses it). -/
theorem C102_relative (other : Bytes → Option Bytes) (path query : Bytes) (hp : Path path) (h0 : ∃ c r, path = (47 : Byte) :: c :: r ∧ c.val ≠ 47)
    (hq : Query query) : goParse other (path ++ (63 : Byte) :: query) = some ⟨path, query⟩ := by
  obtain ⟨c, r, rfl, hc⟩ := h0
  have hall : ∀ b ∈ (47 : Byte) :: c :: r, b.val ≠ 63 ∧ b.val ≠ 35 ∧ 32 ≤ b.val ∧ b.val ≠ 127 := fun b hb => path_plain b (hp.2.1 b hb)
  have hn : (63 : Byte) ∉ (47 : Byte) :: c :: r := fun hx => (hall 63 hx).1 rfl
  have hraw : ∀ b ∈ (47 : Byte) :: c :: r ++ (63 : Byte) :: query, b.val ≠ 35 ∧ 32 ≤ b.val ∧ b.val ≠ 127 := by
    intro b hb
    rcases List.mem_append.1 hb with hb | hb
    · exact (hall b hb).2
    · rcases List.mem_cons.1 hb with rfl | hb
      · decide
      · have := hq b hb; tauto
  have hcut : cut 35 ((47 : Byte) :: c :: r ++ (63 : Byte) :: query) = ((47 : Byte) :: c :: r ++ (63 : Byte) :: query, []) :=
    cut_none 35 _ fun hx => (hraw 35 hx).1 rfl
  have hctl : hasCTL ((47 : Byte) :: c :: r ++ (63 : Byte) :: query) = false := by
    unfold hasCTL
    rw [List.any_eq_false]
    intro b hx
    have := hraw b hx
    simp [this.2.1, this.2.2]
  have hg : getScheme ((47 : Byte) :: c :: r ++ (63 : Byte) :: query) = some ([], (47 : Byte) :: c :: r ++ (63 : Byte) :: query) := by
    unfold getScheme
    simp [schemeLoop, isLetter, isDigit]
  have hstar : (47 : Byte) :: c :: r ++ (63 : Byte) :: query ≠ lit "*" := by
    have e1 : lit "*" = [42] := by decide +kernel
    rw [e1]
    simp
  have s1 : lit "//" = [47, 47] := by decide +kernel
  have hp1 : parseUrl other ((47 : Byte) :: c :: r ++ (63 : Byte) :: query) = some ⟨(47 : Byte) :: c :: r, query⟩ := by
    unfold parseUrl
    rw [if_neg (by rw [hctl]; simp), if_neg hstar, hg]
    simp only [cut_at 63 _ query hn, s1]
    have hc' : (47 : Byte) ≠ c := by rintro rfl; exact hc rfl
    rw [if_neg (by simp), if_neg (by simp), if_neg (by simp [hc'])]
    simp only [printPath_ok hp]
    have e2 : (cut 47 ((47 : Byte) :: c :: r)).1 = [] := by unfold cut; simp
    rw [e2]
    simp
  unfold goParse
  rw [hcut]
  simp only [hp1, unescapePath, Option.isSome_some, if_true]

/-- **C102, two links.** A header with a link back and a link on is read as one address; it is accepted and the request goes astray. -/
theorem C102_two_links (other : Bytes → Option Bytes) :
    nextPageURL (goParse other) (lit "<https://h/a>; rel=\"prev\", <https://h/b>; rel=\"next\"") =
      .page ⟨lit "https://h/a%3E;%20rel=%22prev%22,%20%3Chttps://h/b", []⟩ := by
  have e : linkGroup (lit "<https://h/a>; rel=\"prev\", <https://h/b>; rel=\"next\"") =
      some (lit "https://h/a>; rel=\"prev\", <https://h/b") := by decide +kernel
  have e2 : containsSub (lit "next") (lit "<https://h/a>; rel=\"prev\", <https://h/b>; rel=\"next\"") = true := by decide +kernel
  have e3 : goParse other (lit "https://h/a>; rel=\"prev\", <https://h/b") =
      some ⟨lit "https://h/a%3E;%20rel=%22prev%22,%20%3Chttps://h/b", []⟩ := by
    have a1 : (cut 35 (lit "https://h/a>; rel=\"prev\", <https://h/b")) = (lit "https://h/a>; rel=\"prev\", <https://h/b", []) := by
      decide +kernel
    have a2 : getScheme (lit "https://h/a>; rel=\"prev\", <https://h/b") = some (lit "https", lit "//h/a>; rel=\"prev\", <https://h/b") := by
      decide +kernel
    have a3 : cut 63 (lit "//h/a>; rel=\"prev\", <https://h/b") = (lit "//h/a>; rel=\"prev\", <https://h/b", []) := by decide +kernel
    have a4 : ((lit "//h/a>; rel=\"prev\", <https://h/b").drop 2).takeWhile (· ≠ 47) = lit "h" := by decide +kernel
    have a5 : ((lit "//h/a>; rel=\"prev\", <https://h/b").drop 2).dropWhile (· ≠ 47) = lit "/a>; rel=\"prev\", <https://h/b" := by decide +kernel
    have a6 : printAuthority other (lit "h") = some (lit "h") :=
      printAuthority_ok other ⟨lit "h", [], by simp, by decide +kernel, by decide +kernel, .inl rfl⟩
    have a7 : printPath (lit "/a>; rel=\"prev\", <https://h/b") = some (lit "/a%3E;%20rel=%22prev%22,%20%3Chttps://h/b") := by decide +kernel
    have a8 : parseUrl other (lit "https://h/a>; rel=\"prev\", <https://h/b") =
        some ⟨lit "https://h/a%3E;%20rel=%22prev%22,%20%3Chttps://h/b", []⟩ := by
      unfold parseUrl
      rw [if_neg (by decide +kernel), if_neg (by decide +kernel), a2]
      simp only [a3]
      rw [if_neg (by decide +kernel), if_neg (by decide +kernel), if_pos (by decide +kernel)]
      simp only [a4, a5, a6, a7]
      decide +kernel
    unfold goParse
    simp only [a1, a8, unescapePath, Option.isSome_some, if_true]
  unfold nextPageURL
  rw [if_pos e2, e]
  simp only [e3]

theorem demo_scheme : AnyCase (lit "Https") (lit "https") := by
  have e1 : lit "Https" = [72, 116, 116, 112, 115] := by decide +kernel
  have e2 : lit "https" = [104, 116, 116, 112, 115] := by decide +kernel
  rw [e1, e2]
  exact .cons (.inr (by decide)) (anyCase_self _)

/-- The link of a second page of styles is an address. -/
theorem demo_address : Address (lit "Https://api.mapbox.com/styles/v1/u?start=c%2F1&limit=2#x") ⟨lit "https://api.mapbox.com/styles/v1/u", lit "start=c%2F1&limit=2"⟩ := by
  refine ⟨lit "Https", lit "https", lit "api.mapbox.com", lit "/styles/v1/u", lit "?start=c%2F1&limit=2", lit "#x", .inr rfl, demo_scheme,
    ⟨lit "api.mapbox.com", [], by simp, by decide +kernel, by decide +kernel, .inl rfl⟩,
    ⟨.inr ⟨lit "styles/v1/u", by decide +kernel⟩, by decide +kernel, lit "/styles/v1/u", ?_⟩, by unfold Query; decide +kernel, by decide +kernel, by decide +kernel,
    .inl (by decide +kernel), .inr ⟨lit "x", lit "x", by decide +kernel, ?_⟩⟩
  · exact decodes_unescapePath _ _ _ (le_refl _) (by decide +kernel)
  · exact decodes_unescapePath _ _ _ (le_refl _) (by decide +kernel)

/-- Two pages of styles linked by such an address. -/
example : ∃ net reqs, Linked listStyleC (lit "tok") net [] ⟨address (listStylesPath (lit "me")), listStylesQuery true⟩
    [[demoStyle], [demoStyle, demoStyle]] reqs := by
  have hv : demoStyle.Valid := ⟨by decide +kernel, demo_time_valid, demo_time_valid⟩
  have hm : ∀ l : List ListStyle, (∀ x ∈ l, x.Valid) → ∃ b, JBytes.marshal (sliceC listStyleC) (some l) = some b := by
    intro l hl
    obtain ⟨x, h1, _⟩ := (JText.C95_pages JText.prints_allDecimals).2 (some l) (fun l' h => by cases h; exact hl)
    exact ⟨_, by unfold JBytes.marshal; rw [h1]; rfl⟩
  obtain ⟨b1, h1⟩ := hm [demoStyle] (by simpa using hv)
  obtain ⟨b2, h2⟩ := hm [demoStyle, demoStyle] (by simpa using hv)
  refine ⟨fun h => if h.length = 1 then
      some ⟨200, lit "<Https://api.mapbox.com/styles/v1/u?start=c%2F1&limit=2#x>; rel=\"next\"", b1 ++ [10]⟩ else some ⟨200, [], b2 ++ []⟩, _,
    .more rfl ⟨b1, [10], h1, rfl⟩ ?_ demo_address (.last rfl ⟨b2, [], h2, rfl⟩ ?_)⟩
  · change LinksTo (lit "<Https://api.mapbox.com/styles/v1/u?start=c%2F1&limit=2#x>; rel=\"next\"") _
    refine ⟨[], lit "; rel=\"next\"", by decide +kernel, by decide +kernel, by decide +kernel, by decide +kernel,
      lit "<Https://api.mapbox.com/styles/v1/u?start=c%2F1&limit=2#x>; rel=\"", lit "\"", by decide +kernel⟩
  · rintro ⟨a, b, h⟩
    have := congrArg List.length h
    have e : (lit "next").length = 4 := by decide +kernel
    simp only [List.length_append, e] at this
    simp only [List.length_nil] at this
    omega

end Verif.Client
