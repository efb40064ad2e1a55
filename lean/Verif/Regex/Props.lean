import Verif.Regex.Scan
import Verif.Rest.Props
/-
C136: the regular expressions of the repository mean what the models of its functions say, and what the routes of a ServeMux match.
-/
namespace Micro.Regex
open Micro Micro.Rest
set_option linter.unusedSimpArgs false
variable {α : Type} [Sym α] {H : Type}

/-! ### Searching -/

/-- C136. A search finds a match iff a part of the text is in the language of the expression. -/
theorem c136_language (re : Re) (s : List α) : matchString re s = true ↔ ∃ a u t, s = a ++ u ++ t ∧ Matches re a.isEmpty u t :=
  matchString_iff re s

example : matchString numberRe "x-1.5e3y".toList = true := by decide

/-- C136. The match that is found is in the language, and none begins before it; nil is returned iff there is none. -/
theorem c136_leftmost (re : Re) (s : List α) :
    (∀ ps, findSub re s = some ps → ∃ a u t, s = a ++ u ++ t ∧ ps.head? = some u ∧ ps.length = re.caps + 1 ∧ Matches re a.isEmpty u t ∧
      ∀ a' u' t', s = a' ++ u' ++ t' → Matches re a'.isEmpty u' t' → a.length ≤ a'.length) ∧
    (findSub re s = none ↔ ¬ ∃ a u t, s = a ++ u ++ t ∧ Matches re a.isEmpty u t) := by
  constructor
  · intro ps h
    obtain ⟨⟨b, r⟩, hs, rfl⟩ := Option.map_eq_some_iff.1 h
    obtain ⟨-, h2, h3, h4⟩ := searchLoop_some _ _ _ _ hs
    have hb : b ≤ s.length := by omega
    have hm := (agrees_outs re (b == 0) (s.drop b) r.txt r.rest).1 ⟨r, List.mem_of_head? h3, rfl, rfl⟩
    refine ⟨s.take b, r.txt, r.rest, ?_, rfl, by simp [parts], ?_, ?_⟩
    · rw [List.append_assoc, ← hm.1, List.take_append_drop]
    · have he : (s.take b).isEmpty = (b == 0) := by
        cases b with
        | zero => simp
        | succ b => cases s with
          | nil => simp at hb
          | cons c s => simp
      rw [he]; exact hm.2
    · rintro a' u' t' rfl hm'
      rw [List.length_take]
      by_contra hlt
      have := h4 a'.length (by omega) (by omega)
      unfold execAt at this
      rw [List.append_assoc, List.drop_left, List.head?_eq_none_iff] at this
      have he : (a'.length == 0) = a'.isEmpty := by cases a' <;> simp
      rw [he] at this
      obtain ⟨q, hq, -⟩ := (agrees_outs re a'.isEmpty (u' ++ t') u' t').2 ⟨rfl, hm'⟩
      rw [this] at hq; cases hq
  · rw [← matchString_iff]
    unfold findSub matchString
    cases search re s 0 <;> simp

example : findSub pathRe "ab.cd[3]".toList = some [".cd".toList, "cd".toList, []] := by decide

/-! ### The scanners of the models -/

/-- C136. decimalRegex.FindStringSubmatch gives the parts that the model of StringToDecimal works with. -/
theorem c136_decimal (s : List Char) : findSub decimalRe s =
    some [(Dec.matchDecimal s).whole, (Dec.matchDecimal s).minus, (Dec.matchDecimal s).int, (Dec.matchDecimal s).frac] :=
  decimal_find s

example : findSub decimalRe "-12.5x".toList = some ["-12.5".toList, "-".toList, "12".toList, "5".toList] := by decide
example : findSub decimalRe "abc".toList = some [[], [], [], []] := by decide

/-- C136. numberStringRegex.MatchString is the test of the model, and the texts the expression stands for are those of NumberRegex. -/
theorem c136_number (s : List Char) :
    matchString numberRe s = Json.matchNumber s ∧ ∀ bg u t, Matches numberRe bg u t ↔ Json.NumberRegex u := by
  refine ⟨?_, fun bg u t => matches_number bg u t⟩
  rw [Bool.eq_iff_iff, matchString_iff, Json.matchNumber_iff]
  simp only [matches_number]

/-- C136. regexPathParts: the successive matches, with the key and the index of each, and the text that is left when they are removed. -/
theorem c136_path (s : List Char) :
    findAllSub pathRe s = (Json.findAll s).1.map (fun p =>
      [if p.key ≠ [] then '.' :: p.key else '[' :: (p.index ++ [']']), p.key, if p.key ≠ [] then [] else p.index]) ∧
    replaceAll pathRe s [] = (Json.findAll s).2 := by
  obtain ⟨hs, h1, h2⟩ := path_scan s
  constructor
  · unfold findAllSub
    rw [allLoop_scan path_exec path_nonempty h1 s 0 (s.length + 1) none (by omega) (by simp) (by omega), h2]
  · unfold replaceAll
    rw [replLoop_scan path_exec path_nonempty h1 s 0 (s.length + 1) 0 (by omega) (by simp) (by omega) (by omega)]
    simp

example : findAllSub pathRe "a.b[12]]c".toList = [[".b".toList, "b".toList, []], ["[12]".toList, [], "12".toList]] := by decide
example : replaceAll pathRe "a.b[12]]c".toList [] = "a]c".toList := by decide

/-- C136. camelWordsRegexp.FindAllString gives the words of the model. -/
theorem c136_camel (s : List Nat) : findAllString camelRe s = Funcs.camelWords s := by
  obtain ⟨hs, o, h1, h2⟩ := camel_scan s
  unfold findAllString
  rw [allLoop_scan camel_exec camel_nonempty h1 s 0 (s.length + 1) none (by omega) (by simp) (by omega), h2]

example : findAllString camelRe ("aFooBARx".toList.map Char.toNat) = ["Foo", "B", "A", "Rx"].map (·.toList.map Char.toNat) := by decide

/-! ### Routes -/

theorem hexDigits_iff (n : Nat) (x : List Char) : (x.length = n ∧ x.all isHex = true) ↔ HexDigits n x := by
  simp [HexDigits, List.all_eq_true, isHex_iff]

theorem reads_hex (n : Nat) : Reads (outs (.rep hexRe n (some n))) (fun x k => HexDigits n x ∧ k = []) :=
  reads_congr (reads_exact oneOf_hex n) (by intro x k; rw [hexDigits_iff])

theorem reads_uuid (i : Nat) : Reads (outs (uuidRe i)) (fun x k => IsUUID x ∧ k = [(i, x)]) := by
  have h := reads_cap (re := .all [.rep hexRe 8 (some 8), .lit '-', .rep hexRe 4 (some 4), .lit '-', .rep hexRe 4 (some 4), .lit '-', .rep hexRe 4 (some 4), .lit '-',
    .rep hexRe 12 (some 12)]) (reads_andThen (reads_hex 8) (reads_andThen (reads_lit '-') (reads_andThen (reads_hex 4) (reads_andThen (reads_lit '-')
      (reads_andThen (reads_hex 4) (reads_andThen (reads_lit '-') (reads_andThen (reads_hex 4) (reads_andThen (reads_lit '-') (reads_hex 12))))))))) i
  refine reads_congr h ?_
  intro x k
  constructor
  · rintro ⟨k', ⟨a, _, _, _, rfl, rfl, ⟨ha, rfl⟩, _, _, _, _, rfl, rfl, ⟨rfl, rfl⟩, b, _, _, _, rfl, rfl, ⟨hb, rfl⟩, _, _, _, _, rfl, rfl, ⟨rfl, rfl⟩,
      c, _, _, _, rfl, rfl, ⟨hc, rfl⟩, _, _, _, _, rfl, rfl, ⟨rfl, rfl⟩, d, _, _, _, rfl, rfl, ⟨hd, rfl⟩, _, e, _, _, rfl, rfl, ⟨rfl, rfl⟩, he, rfl⟩, rfl⟩
    exact ⟨⟨a, b, c, d, e, ha, hb, hc, hd, he, rfl⟩, rfl⟩
  · rintro ⟨⟨a, b, c, d, e, ha, hb, hc, hd, he, rfl⟩, rfl⟩
    exact ⟨[], ⟨a, _, [], [], rfl, rfl, ⟨ha, rfl⟩, ['-'], _, [], [], rfl, rfl, ⟨rfl, rfl⟩, b, _, [], [], rfl, rfl, ⟨hb, rfl⟩, ['-'], _, [], [], rfl, rfl, ⟨rfl, rfl⟩,
      c, _, [], [], rfl, rfl, ⟨hc, rfl⟩, ['-'], _, [], [], rfl, rfl, ⟨rfl, rfl⟩, d, _, [], [], rfl, rfl, ⟨hd, rfl⟩, ['-'], e, [], [], rfl, rfl, ⟨rfl, rfl⟩, he, rfl⟩, rfl⟩

theorem reads_text (s : List Char) : Reads (outs (textRe s)) (fun x k => x = s ∧ k = []) := by
  induction s with
  | nil => exact reads_eps
  | cons c s ih =>
    refine reads_congr (reads_andThen (reads_lit c) ih) ?_
    intro x k
    constructor
    · rintro ⟨_, _, _, _, rfl, rfl, ⟨rfl, rfl⟩, rfl, rfl⟩; exact ⟨rfl, rfl⟩
    · rintro ⟨rfl, rfl⟩; exact ⟨[c], s, [], [], rfl, rfl, ⟨rfl, rfl⟩, rfl, rfl⟩

/-- The captures of the pieces whose first group has number i. -/
def capsOf : Nat → List (List Char) → List (Nat × List Char)
  | _, [] => []
  | i, q :: qs => capsOf (i + 1) qs ++ [(i, q)]

theorem reads_pieces : ∀ (ps : List Piece) (i : Nat), Reads (outs (piecesRe i ps)) (fun x k => ∃ qs, Fits ps x qs ∧ k = capsOf i qs) := by
  intro ps
  induction ps with
  | nil =>
    intro i
    refine reads_congr reads_eps ?_
    intro x k
    constructor
    · rintro ⟨rfl, rfl⟩; exact ⟨[], .nil, rfl⟩
    · rintro ⟨_, ⟨⟩, rfl⟩; exact ⟨rfl, rfl⟩
  | cons p ps ih =>
    intro i
    cases p with
    | text s =>
      refine reads_congr (reads_andThen (reads_text s) (ih i)) ?_
      intro x k
      constructor
      · rintro ⟨_, z, _, _, rfl, rfl, ⟨rfl, rfl⟩, qs, hf, rfl⟩; exact ⟨qs, .text _ _ _ _ hf, by simp⟩
      · rintro ⟨qs, hf, rfl⟩
        cases hf with
        | text _ _ u _ hf => exact ⟨s, u, [], _, rfl, by simp, ⟨rfl, rfl⟩, qs, hf, rfl⟩
    | uuid =>
      refine reads_congr (reads_andThen (reads_uuid i) (ih (i + 1))) ?_
      intro x k
      constructor
      · rintro ⟨y, z, _, _, rfl, rfl, ⟨hy, rfl⟩, qs, hf, rfl⟩; exact ⟨y :: qs, .uuid _ _ _ _ hy hf, rfl⟩
      · rintro ⟨_, hf, rfl⟩
        cases hf with
        | uuid y _ u qs hy hf => exact ⟨y, u, _, _, rfl, rfl, ⟨hy, rfl⟩, qs, hf, rfl⟩

theorem capsOf_lookup : ∀ (qs : List (List Char)) (i j : Nat), (capsOf i qs).lookup (i + j) = qs[j]? := by
  intro qs
  induction qs with
  | nil => intro i j; rfl
  | cons q qs ih =>
    intro i j
    rw [capsOf, List.lookup_append]
    cases j with
    | zero =>
      have : ∀ (qs : List (List Char)) (m i : Nat), i < m → (capsOf m qs).lookup i = none := by
        intro qs
        induction qs with
        | nil => intro m i _; rfl
        | cons q qs ih =>
          intro m i him
          rw [capsOf, List.lookup_append, ih (m + 1) i (by omega)]
          have hne : (i == m) = false := by simp; omega
          simp [List.lookup, hne]
      rw [Nat.add_zero, this qs (i + 1) i (by omega)]
      simp [List.lookup]
    | succ j =>
      rw [show i + (j + 1) = (i + 1) + j by omega, ih (i + 1) j]
      have hne : (i + 1 + j == i) = false := by simp; omega
      simp [List.lookup, hne]

theorem fits_length : ∀ {ps : List Piece} {u : List Char} {qs : List (List Char)}, Fits ps u qs → ∀ i, (piecesRe i ps).caps = qs.length := by
  have ht : ∀ s : List Char, (textRe s).caps = 0 := by
    intro s
    induction s with
    | nil => rfl
    | cons c s ih => simpa [textRe, Re.caps] using ih
  have hu : ∀ i, (uuidRe i).caps = 1 := by intro i; simp [uuidRe, Re.all, Re.caps, hexRe]
  intro ps u qs h
  induction h with
  | nil => intro i; rfl
  | text s ps u qs _ ih => intro i; simp [piecesRe, Re.caps, ht, ih i]
  | uuid x ps u qs _ _ ih => intro i; simp [piecesRe, Re.caps, hu, ih (i + 1)]; omega

theorem route_outs (ps : List Piece) (url : List Char) :
    (∀ qs, Fits ps url qs → outs (routeRe ps) true url = [⟨url, [], capsOf 1 qs⟩]) ∧ ((∀ qs, ¬ Fits ps url qs) → outs (routeRe ps) true url = []) ∧
    outs (routeRe ps) false url = [] := by
  have hpc := reads_pieces ps 1
  have he : ∀ b u, outs (α := Char) .bol b u = if b then [⟨[], u, []⟩] else [] := fun _ _ => rfl
  have hout : outs (routeRe ps) true url = (outs (piecesRe 1 ps) true url).flatMap fun r => if r.rest.isEmpty then [⟨r.txt, r.rest, r.caps⟩] else [] := by
    have : outs (routeRe ps) true url = andThen (outs .bol) (andThen (outs (piecesRe 1 ps)) (outs .eol)) true url := rfl
    rw [this]
    unfold andThen
    rw [he]
    simp only [if_true, List.flatMap_cons, List.flatMap_nil, List.append_nil, List.isEmpty_nil, Bool.and_self, List.nil_append, List.map_id']
    congr 1
    funext r
    simp only [outs]
    split <;> simp
  refine ⟨?_, ?_, rfl⟩
  · intro qs hf
    have := (hpc true).1 url [] (capsOf 1 qs) ⟨qs, hf, rfl⟩
    rw [List.append_nil] at this
    rw [hout, this]; simp
  · intro hno
    rw [hout]
    by_cases h : ∃ x v k, url = x ++ v ∧ ∃ qs, Fits ps x qs ∧ k = capsOf 1 qs
    · obtain ⟨x, v, k, rfl, qs, hf, rfl⟩ := h
      rw [(hpc true).1 x v _ ⟨qs, hf, rfl⟩]
      cases v with
      | nil => rw [List.append_nil] at hno; exact absurd hf (hno qs)
      | cons c v => simp
    · rw [(hpc true).2 url]
      · rfl
      · intro x v k hxv hP; exact h ⟨x, v, k, hxv, hP⟩

theorem fits_unique {ps : List Piece} {u : List Char} {qs qs' : List (List Char)} (h : Fits ps u qs) (h' : Fits ps u qs') : qs = qs' := by
  have huu : ∀ {x : List Char}, IsUUID x → x.length = 36 := by
    rintro x ⟨a, b, c, d, e, ha, hb, hc, hd, he, rfl⟩
    simp [ha.1, hb.1, hc.1, hd.1, he.1]
  induction h generalizing qs' with
  | nil => cases h'; rfl
  | text s ps u qs _ ih =>
    generalize hw : s ++ u = w at h'
    cases h' with
    | text _ _ u' _ h' => rw [List.append_cancel_left hw] at ih; exact ih h'
  | uuid x ps u qs hx _ ih =>
    generalize hw : x ++ u = w at h'
    cases h' with
    | uuid x' _ u' qs' hx' h' =>
      obtain ⟨rfl, rfl⟩ := List.append_inj hw (by rw [huu hx, huu hx'])
      rw [ih h']

/-- C136. A route `^pieces$` matches exactly the URLs that consist of its pieces, and the parts are the whole URL and the UUIDs in order. -/
theorem c136_route (ps : List Piece) (url : List Char) (parts : List (List Char)) :
    findSub (routeRe ps) url = some parts ↔ ∃ qs, Fits ps url qs ∧ parts = url :: qs := by
  obtain ⟨h1, h2, -⟩ := route_outs ps url
  by_cases h : ∃ qs, Fits ps url qs
  · obtain ⟨qs, hf⟩ := h
    have he : execAt (routeRe ps) url 0 = some ⟨url, [], capsOf 1 qs⟩ := by
      unfold execAt; simp [h1 qs hf]
    have hfind : findSub (routeRe ps) url = some (url :: qs) := by
      unfold findSub
      rw [search_here (Nat.zero_le _) he]
      simp only [Option.map_some, Regex.parts]
      congr 2
      have hc : (routeRe ps).caps = qs.length := by
        simp [routeRe, Re.caps, fits_length hf 1]
      rw [hc]
      apply List.ext_getElem (by simp)
      intro j hj hj'
      have : (capsOf 1 qs).lookup (j + 1) = qs[j]? := by rw [Nat.add_comm]; exact capsOf_lookup qs 1 j
      simp [this, hj']
    rw [hfind]
    constructor
    · rintro ⟨⟩; exact ⟨qs, hf, rfl⟩
    · rintro ⟨qs', hf', rfl⟩; rw [fits_unique hf hf']
  · have hnone : findSub (routeRe ps) url = none := by
      unfold findSub search
      rw [(searchLoop_none _ _).2]
      · rfl
      · intro i _ _
        unfold execAt
        cases i with
        | zero => simp [h2 (fun qs hf => h ⟨qs, hf⟩)]
        | succ i => simp [(route_outs ps (url.drop (i + 1))).2.2]
    rw [hnone]
    constructor
    · rintro ⟨⟩
    · rintro ⟨qs, hf, -⟩; exact absurd ⟨qs, hf⟩ h

/-- C136. The UUIDs of a URL are determined by the route. -/
theorem c136_route_unique (ps : List Piece) (url : List Char) (qs qs' : List (List Char)) (h : Fits ps url qs) (h' : Fits ps url qs') : qs = qs' :=
  fits_unique h h'

/-- The route of the example below matches. -/
example : findSub (routeRe [.text "/customer/".toList, .uuid]) "/customer/01234567-89ab-CDEF-0123-456789abcdef".toList =
    some ["/customer/01234567-89ab-CDEF-0123-456789abcdef".toList, "01234567-89ab-CDEF-0123-456789abcdef".toList] := by decide
example : findSub (routeRe [.text "/customer/".toList, .uuid]) "/customer/01234567-89ab-CDEF-0123-456789abcdeg".toList = none := by decide

/-- The registrations of routes. -/
def registered (rs : List (List Char × List Piece × H)) : List (Reg Re H) := rs.map fun r => ⟨r.1, routeRe r.2.1, r.2.2⟩

/-- C136. A ServeMux with routes calls the handler of the first route with the method of the request whose pieces make up the URL, with
the URL and the UUIDs in it. -/
theorem c136_serve (rs : List (List Char × List Piece × H)) (method url : List Char) (h : H) (parts : List (List Char)) :
    serve findSub (registered rs) method url = .called h parts ↔
      ∃ pre ps post qs, rs = pre ++ (method, ps, h) :: post ∧ Fits ps url qs ∧ parts = url :: qs ∧
        ∀ x ∈ pre, x.1 = method → ∀ qs, ¬ Fits x.2.1 url qs := by
  have hno : ∀ ps, findSub (routeRe ps) url = none ↔ ∀ qs, ¬ Fits ps url qs := by
    intro ps
    constructor
    · intro hn qs hf
      have := (c136_route ps url (url :: qs)).2 ⟨qs, hf, rfl⟩
      rw [hn] at this; cases this
    · intro hn
      cases hfs : findSub (routeRe ps) url with
      | none => rfl
      | some parts => obtain ⟨qs, hf, -⟩ := (c136_route ps url parts).1 hfs; exact absurd hf (hn qs)
  rw [c65_called]
  constructor
  · rintro ⟨pre, r, post, hr, hm, hf, rfl, hpre⟩
    obtain ⟨pre', rest, rfl, hp1, hp2⟩ := List.map_eq_append_iff.1 hr
    obtain ⟨x, post', rfl, hx, hpo⟩ := List.map_eq_cons_iff.1 hp2
    obtain ⟨m, ps, h⟩ := x
    subst hx
    obtain ⟨qs, hfit, hparts⟩ := (c136_route ps url parts).1 hf
    refine ⟨pre', ps, post', qs, ?_, hfit, hparts, ?_⟩
    · simp only at hm; rw [hm]
    · intro y hy hym
      rw [← hno]
      exact hpre ⟨y.1, routeRe y.2.1, y.2.2⟩ (by rw [← hp1]; exact List.mem_map.2 ⟨y, hy, rfl⟩) hym
  · rintro ⟨pre, ps, post, qs, rfl, hf, rfl, hpre⟩
    refine ⟨registered pre, ⟨method, routeRe ps, h⟩, registered post, by simp [registered], rfl, (c136_route ps url _).2 ⟨qs, hf, rfl⟩, rfl, ?_⟩
    intro y hy hym
    obtain ⟨x, hx, rfl⟩ := List.mem_map.1 hy
    exact (hno _).2 (hpre x hx hym)

/-- C136. What a ServeMux with routes answers otherwise: 405 if some route is made up like the URL, and 404 if none is. -/
theorem c136_serve_errors (rs : List (List Char × List Piece × H)) (method url : List Char)
    (hno : ∀ x ∈ rs, x.1 = method → ∀ qs, ¬ Fits x.2.1 url qs) :
    ((∃ x ∈ rs, ∃ qs, Fits x.2.1 url qs) → serve findSub (registered rs) method url = .httpError 405 "Method Not Allowed") ∧
    ((∀ x ∈ rs, ∀ qs, ¬ Fits x.2.1 url qs) → serve findSub (registered rs) method url = .httpError 404 "Not Found") := by
  have hfn : ∀ ps, findSub (routeRe ps) url = none ↔ ∀ qs, ¬ Fits ps url qs := by
    intro ps
    constructor
    · intro hn qs hf
      have := (c136_route ps url (url :: qs)).2 ⟨qs, hf, rfl⟩
      rw [hn] at this; cases this
    · intro hn
      cases hfs : findSub (routeRe ps) url with
      | none => rfl
      | some parts => obtain ⟨qs, hf, -⟩ := (c136_route ps url parts).1 hfs; exact absurd hf (hn qs)
  have hsp := serveLoop_spec findSub method url (registered rs) false
  unfold serve
  rcases hsp with ⟨pre, r, post, parts, h1, h2, h3, -, -⟩ | ⟨-, h⟩
  · exfalso
    have hr : r ∈ registered rs := by rw [h1]; simp
    obtain ⟨x, hx, rfl⟩ := List.mem_map.1 hr
    simp only at h3
    rw [(hfn _).2 (hno x hx h2)] at h3
    cases h3
  · constructor
    · rintro ⟨x, hx, qs, hf⟩
      rcases h with ⟨-, h⟩ | ⟨⟨-, h⟩, -⟩
      · exact h
      · have := h ⟨x.1, routeRe x.2.1, x.2.2⟩ (List.mem_map.2 ⟨x, hx, rfl⟩)
        exact absurd hf ((hfn _).1 this qs)
    · intro hall
      rcases h with ⟨h | ⟨r, hr, hne⟩, -⟩ | ⟨-, h⟩
      · cases h
      · obtain ⟨x, hx, rfl⟩ := List.mem_map.1 hr
        exact absurd ((hfn _).2 (hall x hx)) hne
      · exact h

theorem sampleUUID : IsUUID "01234567-89ab-cdef-0123-456789abcdef".toList :=
  ⟨"01234567".toList, "89ab".toList, "cdef".toList, "0123".toList, "456789abcdef".toList,
    ⟨by decide, by simp [HexDigit]⟩, ⟨by decide, by simp [HexDigit]⟩, ⟨by decide, by simp [HexDigit]⟩, ⟨by decide, by simp [HexDigit]⟩, ⟨by decide, by simp [HexDigit]⟩, by decide⟩

/-- Two routes for the same URL and different methods. -/
example : serve findSub (registered [("GET".toList, [.text "/c/".toList, .uuid], 1), ("PUT".toList, [.text "/c/".toList, .uuid], 2)]) "PUT".toList
    "/c/01234567-89ab-cdef-0123-456789abcdef".toList =
    .called 2 ["/c/01234567-89ab-cdef-0123-456789abcdef".toList, "01234567-89ab-cdef-0123-456789abcdef".toList] :=
  (c136_serve _ _ _ _ _).2 ⟨[("GET".toList, [.text "/c/".toList, .uuid], 1)], [.text "/c/".toList, .uuid], [], ["01234567-89ab-cdef-0123-456789abcdef".toList], rfl,
    .text "/c/".toList [.uuid] "01234567-89ab-cdef-0123-456789abcdef".toList _
      (.uuid "01234567-89ab-cdef-0123-456789abcdef".toList [] [] [] sampleUUID .nil), rfl,
    by intro x hx; simp only [List.mem_singleton] at hx; subst hx; intro h; exact absurd h (by decide)⟩

/-- C136. The same pieces without `^` and `$` match every URL that contains them somewhere: the pattern alone does not stand for one resource. -/
theorem c136_unanchored (ps : List Piece) (url : List Char) :
    (findSub (piecesRe 1 ps) url).isSome = true ↔ ∃ a x t qs, url = a ++ x ++ t ∧ Fits ps x qs := by
  have hfm : (findSub (piecesRe 1 ps) url).isSome = matchString (piecesRe 1 ps) url := by simp [findSub, matchString]
  rw [hfm, matchString_iff]
  have hmf : ∀ bg x t, Matches (piecesRe 1 ps) bg x t ↔ ∃ qs, Fits ps x qs := by
    intro bg x t
    have hr := reads_pieces ps 1 bg
    constructor
    · intro hm
      obtain ⟨r, hr', hrt, hrr⟩ := (agrees_outs (piecesRe 1 ps) bg (x ++ t) x t).2 ⟨rfl, hm⟩
      by_cases h : ∃ y v k, x ++ t = y ++ v ∧ ∃ qs, Fits ps y qs ∧ k = capsOf 1 qs
      · obtain ⟨y, v, k, he, qs, hf, rfl⟩ := h
        rw [he, hr.1 y v _ ⟨qs, hf, rfl⟩] at hr'
        obtain rfl := List.mem_singleton.1 hr'
        simp only at hrt
        exact ⟨qs, hrt ▸ hf⟩
      · rw [hr.2 (x ++ t) (fun y v k he hp => h ⟨y, v, k, he, hp⟩)] at hr'
        cases hr'
    · rintro ⟨qs, hf⟩
      have := hr.1 x t _ ⟨qs, hf, rfl⟩
      exact ((agrees_outs (piecesRe 1 ps) bg (x ++ t) x t).1 ⟨⟨x, t, capsOf 1 qs⟩, by rw [this]; simp, rfl, rfl⟩).2
  simp only [hmf]
  constructor
  · rintro ⟨a, x, t, h, qs, hf⟩; exact ⟨a, x, t, qs, h, hf⟩
  · rintro ⟨a, x, t, qs, h, hf⟩; exact ⟨a, x, t, h, qs, hf⟩

/-- C136. A pattern without anchors also serves the URLs of other resources. -/
theorem c136_unanchored_serves (h : H) :
    serve findSub [⟨"GET".toList, textRe "/customer".toList, h⟩] "GET".toList "/admin/customers/all".toList = .called h ["/customer".toList] := by
  rfl

/-- C136. A `.` that is not escaped stands for any rune. -/
theorem c136_unescaped_serves (h : H) :
    render (.all [.bol, textRe "/v1".toList, .any, textRe "0".toList, .eol]) = "^/v1.0$".toList ∧
    serve findSub [⟨"GET".toList, .all [.bol, textRe "/v1".toList, .any, textRe "0".toList, .eol], h⟩] "GET".toList "/v1a0".toList = .called h ["/v1a0".toList] := by
  exact ⟨by decide, rfl⟩

end Micro.Regex
