import Verif.Proofs.ReportSplit
import Verif.Proofs.DecodeStable
/-!
# C96, C97: what error values say

C96: the error of a failing `Encode` or `Decode` names the struct fields on the way to the failure.  C97: `errors.Is` finds the cause.
-/
namespace Verif.Props
open Spec T

/-! ### the reports belong to the coders of the other properties -/

/-- Forgetting the reports gives `Encode`: the same outcome, the report's cause as error, the same state afterwards. -/
theorem C96_encode_same (t : Ty) (v : Val) (s : Enc) : encode t v s = ((encodeT t v s).1.plain, (encodeT t v s).2) := by
  rw [← encodeT_plain]; rfl

/-- Forgetting the reports gives `Decode`. -/
theorem C96_decode_same (t : Ty) (old : Val) (d : Dec) : decode t old d = ((decodeT t old d).1.plain, (decodeT t old d).2) := by
  rw [← decodeT_plain]; rfl

/-! ### C96 -/

/-- C96, encoding: the names in an error are those of a path through the type, one for each struct on the way that is not an enum, for
every type, every value and every writer. -/
theorem C96_encode_path (t : Ty) (v : Val) (s : Enc) (r : Report) (h : (encodeT t v s).1 = .err r) : Named s.enc false t r.fields := by
  have hn : s.enc ≠ .other := by
    intro hn
    have := encode_other (t := t) (v := v) hn
    rw [C96_encode_same, h] at this
    cases this
  rcases hx : encodeT t v s with ⟨q, s'⟩
  rw [hx] at h
  simp only at h
  subst h
  rw [encodeT_eq hn] at hx
  exact encT_on s.enc t {} v _ r s' hx

/-- C96, decoding. Partial: `Named` allows an error in a Borsh field of a library type to go without the name of the field
(`C96_violated`). -/
theorem C96_decode_path_partial (t : Ty) (old : Val) (d : Dec) (r : Report) (h : (decodeT t old d).1 = .err r) :
    Named d.enc true t r.fields := by
  have hn : d.enc ≠ .other := by
    intro hn
    have := decode_other (t := t) (v := old) hn
    rw [C96_decode_same, h] at this
    cases this
  rcases hx : decodeT t old d with ⟨q, d'⟩
  rw [hx] at h
  simp only at h
  subst h
  rw [decodeT_eq hn] at hx
  exact decT_on d.enc t {} old _ r d' hx

/-- C96, encoding: the outermost name is that of the first field that fails, whatever fields follow.  The field fails with `x` if the
fields before it can be encoded and these and the field cannot. -/
theorem C96_first {fs : Fields} {us : List Val} (hl : us.length = fs.length) (m : FieldMeta) (t : Ty) (v : Val) (s : Enc) (x : Err)
    (hne : s.enc = .borsh → (fs.append (.cons m t .nil)).isEnum = false)
    (hok : (encode (.struct fs) (.struct us) s).1 = .ok ())
    (herr : (encode (.struct (fs.append (.cons m t .nil))) (.struct (us ++ [v])) s).1 = .err x) (gs : Fields) (vs : List Val) :
    ∃ rest, (encodeT (.struct (fs.append (.cons m t gs))) (.struct (us ++ v :: vs)) s).1 = .err ⟨m.name :: rest, true, x⟩ := by
  obtain ⟨-, -, -, r', hc, -, h, -⟩ := encode_first hl hne (s1 := (encode (.struct fs) (.struct us) s).2)
    (by rw [← hok]) (s2 := (encode (.struct (fs.append (.cons m t .nil))) (.struct (us ++ [v])) s).2) (by rw [← herr])
  refine ⟨r'.fields, ?_⟩
  have hf : r'.found = true := by
    have hn : s.enc ≠ .other := by
      intro hn
      have := encode_other (t := .struct fs) (v := .struct us) hn
      rw [hok] at this
      cases this
    have := h gs vs
    rw [encodeT_eq hn] at this
    exact encT_finds s.enc _ _ _ _ { r' with fields := m.name :: r'.fields } _ this
  rw [h gs vs]
  subst hc
  simp only [Told.err.injEq]
  rw [hf]

/-- C96, encoding: every failure of a struct that is not an enum is of that kind. -/
theorem C96_split {fs : Fields} {vs : List Val} (s : Enc) (x : Err) (hne : s.enc = .borsh → fs.isEnum = false)
    (herr : (encode (.struct fs) (.struct vs) s).1 = .err x) :
    ∃ pre m t post us v ws, fs = Fields.append pre (.cons m t post) ∧ vs = us ++ v :: ws ∧ us.length = pre.length ∧
      (encode (.struct pre) (.struct us) s).1 = .ok () ∧
      (encode (.struct (pre.append (.cons m t .nil))) (.struct (us ++ [v])) s).1 = .err x := by
  have hn : s.enc ≠ .other := by
    intro hn
    rw [encode_other hn] at herr
    cases herr
  rw [encode_struct hn hne] at herr
  rcases hx : encFields s.enc fs [] vs { s with cur := some .le } with ⟨q, s'⟩
  rw [hx] at herr
  simp only at herr
  subst herr
  obtain ⟨pre, m, t, post, us, v, ws, s1, rfl, rfl, h1, h2, h3⟩ := encFields_split _ _ _ _ _ _ _ hx
  refine ⟨pre, m, t, post, us, v, ws, rfl, rfl, h1, ?_, ?_⟩
  · rw [encode_struct hn fun h => Fields.isEnum_prefix (hne h), h2]
  · rw [encode_struct hn fun h => by rw [Fields.isEnum_append pre m t .nil post]; exact hne h, h3]

/-- The other names, encoding: for a field without flags and byte order whose length no other field announces, they are those of the error
that encoding the field's value on its own, after the fields before it, gives. -/
theorem C96_inner {fs : Fields} {us : List Val} (hl : us.length = fs.length) (m : FieldMeta) (t : Ty) (v : Val) (s s1 : Enc) (r : Report)
    (hne : s.enc = .borsh → (fs.append (.cons m t .nil)).isEnum = false) (hskip : m.tag.skip = false) (hexp : m.exported = true)
    (hopt : m.tag.option = false) (hcopt : m.tag.coption = false) (hord : m.tag.order = .le) (hname : m.name ≠ [])
    (hsize : m.tag.sizeOf = []) (hcount : fs.uncounted m.name)
    (hok : encode (.struct fs) (.struct us) s = (.ok (), s1)) (herr : (encodeT t v s1).1 = .err r) (gs : Fields) (vs : List Val) :
    (encodeT (.struct (fs.append (.cons m t gs))) (.struct (us ++ v :: vs)) s).1 = .err { r with fields := m.name :: r.fields } := by
  have hn : s.enc ≠ .other := by
    intro hn
    have := encode_other (t := .struct fs) (v := .struct us) hn
    rw [hok] at this
    cases this
  have hne0 : s.enc = .borsh → (fs.append (.cons m t gs)).isEnum = false := fun h => by
    rw [Fields.isEnum_append fs m t gs .nil]; exact hne h
  rw [encode_struct hn fun h => Fields.isEnum_prefix (hne h)] at hok
  obtain ⟨sm, hsm, happ⟩ := encFieldsT_append s.enc fs [] us hl _ _ hok
  have henc : s1.enc = s.enc := by
    obtain ⟨q, cs, c, -, ⟨-, h⟩ | ⟨pre, b, post, c', -, -, -, h⟩⟩ := Sim.encFields s.enc fs [] us { s with cur := some .le }
    · rw [hok] at h
      have := congrArg Prod.snd h
      simp only at this
      rw [this]; rfl
    · rw [hok] at h; cases h
  rw [encodeT_eq (by rw [henc]; exact hn), show encT s1.enc t {} v = encT s.enc t {} v by rw [henc]] at herr
  rw [encodeT_struct hn hne0, happ]
  have hnone : lookupSize m.name sm = none := by rw [hsm _ hname hcount]; rfl
  have hrec : T.of (recordSize m t v sm) s1 = (.ok sm, s1) := by
    unfold recordSize; rw [if_pos hsize]; rfl
  have hfo : fieldOpt m sm = {} := by unfold fieldOpt; rw [hopt, hcopt, hord, hnone]
  simp only [encFieldsT]
  rw [if_neg (by simp [hskip]), T.bind_ok hrec, if_pos hexp, hfo, hord]
  rcases hx : encT s.enc t {} v { s1 with cur := some .le } with ⟨q, s2⟩
  rw [hx] at herr
  simp only at herr
  subst herr
  have hfl : T.of (encFlags s.enc t {} v) { s1 with cur := some .le } = (.ok true, { s1 with cur := some .le }) := by
    unfold encFlags; simp; rfl
  rw [T.bind_err (r := { r with fields := m.name :: r.fields }) (s' := s2)]
  unfold T.inField
  rw [T.bind_ok (show T.of (setCurE .le) s1 = (.ok (), { s1 with cur := some .le }) from rfl), T.bind_ok hfl, if_pos rfl, hx]

/-- C96, decoding: the outermost name is that of the first field that fails. Partial: not for Borsh fields of library types. -/
theorem C96_first_decode_partial {fs : Fields} {us : List Val} (hl : us.length = fs.length) (m : FieldMeta) (t : Ty) (v : Val) (d : Dec)
    (x : Err) (hne : d.enc = .borsh → (fs.append (.cons m t .nil)).isEnum = false ∧ t.directLib = none)
    (hok : ∃ y, (decode (.struct fs) (.struct us) d).1 = .ok y)
    (herr : (decode (.struct (fs.append (.cons m t .nil))) (.struct (us ++ [v])) d).1 = .err x) (gs : Fields) (vs : List Val) :
    ∃ rest f, (decodeT (.struct (fs.append (.cons m t gs))) (.struct (us ++ v :: vs)) d).1 = .err ⟨m.name :: rest, f, x⟩ := by
  obtain ⟨y, hok⟩ := hok
  obtain ⟨-, -, sm, r, hc, -, h, hr⟩ := decode_first hl (fun h => (hne h).1) (d1 := (decode (.struct fs) (.struct us) d).2)
    (by rw [← hok]) (d2 := (decode (.struct (fs.append (.cons m t .nil))) (.struct (us ++ [v])) d).2) (by rw [← herr])
  rcases hr with ⟨l, p, he, hd, -⟩ | ⟨-, r', rfl, -⟩
  · rw [(hne he).2] at hd; cases hd
  · refine ⟨r'.fields, r'.found, ?_⟩
    rw [h gs vs]
    subst hc
    rfl

/-- What happens instead for a Borsh field of a library type, or a pointer to one: the error of its method is returned as it is and names
no field. -/
theorem C96_unnamed {fs : Fields} {us : List Val} (hl : us.length = fs.length) (m : FieldMeta) (t : Ty) (v : Val) (d : Dec)
    (x : Err) (he : d.enc = .borsh) (hne : (fs.append (.cons m t .nil)).isEnum = false) (hlib : t.directLib ≠ none)
    (hok : ∃ y, (decode (.struct fs) (.struct us) d).1 = .ok y)
    (herr : (decode (.struct (fs.append (.cons m t .nil))) (.struct (us ++ [v])) d).1 = .err x) (gs : Fields) (vs : List Val) :
    ∃ f, (decodeT (.struct (fs.append (.cons m t gs))) (.struct (us ++ v :: vs)) d).1 = .err ⟨[], f, x⟩ := by
  obtain ⟨y, hok⟩ := hok
  obtain ⟨-, -, sm, r, hc, -, h, hr⟩ := decode_first hl (fun _ => hne) (d1 := (decode (.struct fs) (.struct us) d).2)
    (by rw [← hok]) (d2 := (decode (.struct (fs.append (.cons m t .nil))) (.struct (us ++ [v])) d).2) (by rw [← herr])
  rcases hr with ⟨l, p, -, -, hu⟩ | ⟨hno, -⟩
  · have hf : r.fields = [] := unmarshalLibT_on (Q := fun p => p = []) rfl l l.zero _ _ _ hu
    refine ⟨r.found, ?_⟩
    rw [h gs vs, ← hf, ← hc]
  · exact absurd ⟨he, by cases h : t.directLib with | none => exact absurd h hlib | some _ => rfl⟩ hno

/-- C96, decoding: every failure of a struct that is not an enum is one of those two kinds. -/
theorem C96_split_decode {fs : Fields} {vs : List Val} (d : Dec) (x : Err) (hne : d.enc = .borsh → fs.isEnum = false)
    (herr : (decode (.struct fs) (.struct vs) d).1 = .err x) :
    ∃ pre m t post us v ws y, fs = Fields.append pre (.cons m t post) ∧ vs = us ++ v :: ws ∧ us.length = pre.length ∧
      (decode (.struct pre) (.struct us) d).1 = .ok y ∧
      (decode (.struct (pre.append (.cons m t .nil))) (.struct (us ++ [v])) d).1 = .err x := by
  have hn : d.enc ≠ .other := by
    intro hn
    rw [decode_other hn] at herr
    cases herr
  rw [decode_struct hn hne] at herr
  rcases hx : (decFields d.enc fs [] false vs >>= fun xs => pure (Val.struct xs)) { d with cur := some .le } with ⟨q, d'⟩
  rw [hx] at herr
  simp only at herr
  subst herr
  obtain ⟨pre, m, t, post, us, v, ws, xs, d1, rfl, rfl, h1, h2, h3⟩ := decFields_split _ _ _ _ _ _ _ _ (map_err hx)
  refine ⟨pre, m, t, post, us, v, ws, .struct xs, rfl, rfl, h1, ?_, ?_⟩
  · rw [decode_struct hn fun h => Fields.isEnum_prefix (hne h), M.bind_ok h2]; rfl
  · rw [decode_struct hn fun h => by rw [Fields.isEnum_append pre m t .nil post]; exact hne h, M.bind_err h3]

theorem extended_of_none : (fs : Fields) → noExtensions fs = true → fs.extended = false
  | .nil, _ => rfl
  | .cons m t fs, h => by
    simp only [noExtensions, Bool.and_eq_true, Bool.or_eq_true, Bool.not_eq_true'] at h
    have ih := extended_of_none fs h.2
    rcases h.1.1 with h | h <;> simp [Fields.extended, h, ih]

/-- The other names, decoding. -/
theorem C96_inner_decode {fs : Fields} {us : List Val} (hl : us.length = fs.length) (m : FieldMeta) (t : Ty) (v y : Val) (d d1 : Dec)
    (r : Report) (hv : d.enc.valid = true) (hd : d.Ok) (hext : noExtensions fs = true)
    (hne : d.enc = .borsh → (fs.append (.cons m t .nil)).isEnum = false ∧ t.directLib = none) (hskip : m.tag.skip = false)
    (hexp : m.exported = true) (hopt : m.tag.option = false) (hcopt : m.tag.coption = false) (hbin : m.tag.binExt = false)
    (hord : m.tag.order = .le) (hname : m.name ≠ []) (hcount : fs.uncounted m.name)
    (hok : decode (.struct fs) (.struct us) d = (.ok y, d1)) (herr : (decodeT t v d1).1 = .err r) (gs : Fields) (vs : List Val) :
    (decodeT (.struct (fs.append (.cons m t gs))) (.struct (us ++ v :: vs)) d).1 = .err { r with fields := m.name :: r.fields } := by
  have hn : d.enc ≠ .other := by intro h; rw [h] at hv; cases hv
  have hne0 : d.enc = .borsh → (fs.append (.cons m t gs)).isEnum = false := fun h => by
    rw [Fields.isEnum_append fs m t gs .nil]; exact (hne h).1
  rw [decode_struct hn fun h => Fields.isEnum_prefix (hne h).1] at hok
  obtain ⟨xs, hok', rfl⟩ := map_ok hok
  obtain ⟨sm, hsm, happ⟩ := decFieldsT_append d.enc fs [] false us hl _ _ _ hok'
  have henc : d1.enc = d.enc := by
    have hx : Ext [] { d with cur := some .le } { d with cur := some .le } := ⟨hd, hd, by simp, rfl, rfl⟩
    obtain ⟨-, -, -, -, h⟩ := (decFields_stab hv fs hext [] false us [] _ _ hx rfl).1 _ _ hok'
    exact h
  have hseen : (false || fs.extended) = false := by
    rw [Bool.false_or]
    exact extended_of_none fs hext
  rw [decodeT_eq (by rw [henc]; exact hn), show decT d1.enc t {} v = decT d.enc t {} v by rw [henc]] at herr
  have hnone : lookupSize m.name sm = none := by rw [hsm _ hname hcount]; rfl
  have hfo : fieldOpt m sm = {} := by unfold fieldOpt; rw [hopt, hcopt, hord, hnone]
  rcases hx : decT d.enc t {} v { d1 with cur := some .le } with ⟨q, d2⟩
  rw [hx] at herr
  simp only at herr
  subst herr
  have hf : decFieldT d.enc t {} v (decT d.enc t {} v) d1 = (.err r, d2) := by
    unfold decFieldT
    rw [T.bind_ok (show T.of (setCurD .le) d1 = (.ok (), { d1 with cur := some .le }) from rfl)]
    rw [if_neg (by simp), if_neg (by simp), hx]
  have hb : decFieldsT d.enc (.cons m t gs) sm (false || fs.extended) (v :: vs) d1 =
      (.err { r with fields := m.name :: r.fields }, d2) := by
    have hdl : (if d.enc = .borsh then t.directLib else none) = none := by
      by_cases h : d.enc = .borsh
      · rw [if_pos h]; exact (hne h).2
      · rw [if_neg h]
    rw [hseen]
    simp only [decFieldsT, hdl]
    rw [if_neg (by simp [hskip]), if_neg (by simp),
      T.bind_ok (show T.of (extensionEnds m) d1 = (.ok false, d1) by unfold extensionEnds; rw [if_neg (by simp [hbin])]; rfl),
      if_neg (by simp [hexp]), hfo]
    exact T.bind_err (by unfold T.inField; rw [hf])
  rw [decodeT_struct hn hne0, T.bind_err (r := { r with fields := m.name :: r.fields }) (s' := d2)]
  rw [happ, T.bind_err hb]

/-- A struct within a struct: `Outer{A uint8; In Inner}` with `Inner{B bool; C uint32}`. -/
def nestedTy : Ty := .struct (.cons { name := [65] } (.uint .w8 false)
  (.cons { name := [73, 110] } (.struct (.cons { name := [66] } .bool (.cons { name := [67] } (.uint .w32 false) .nil))) .nil))

/-- Six bytes decode; with five the error names `In` and `C`, with one `In` and `B`, with none `A`. -/
example : ((decodeT nestedTy nestedTy.zero (Dec.new [1, 1, 5, 0, 0] .bin)).1 = .err ⟨[[73, 110], [67]], true, .notEnough⟩) ∧
    ((decodeT nestedTy nestedTy.zero (Dec.new [1] .borsh)).1 = .err ⟨[[73, 110], [66]], true, .notEnough⟩) ∧
    ((decodeT nestedTy nestedTy.zero (Dec.new [] .compactU16)).1 = .err ⟨[[65]], true, .notEnough⟩) :=
  ⟨by rfl, by rfl, by rfl⟩

/-- A writer that takes two chunks and then fails: the error names `In` and `C`, and the writer's error is found. -/
example : (encodeT nestedTy (.struct [.uint 1, .struct [.bool true, .uint 5]])
      { enc := .bin, count := 0, cur := none, log := [], sink := fun log _ => log.length < 2 }).1 =
    .err ⟨[[73, 110], [67]], true, .write⟩ := by rfl

/-- The hypotheses of `C96_first` and `C96_inner` with that writer: field `A` is written, `A` and `In` are not. -/
example :
    let s : Enc := { enc := .bin, count := 0, cur := none, log := [], sink := fun log _ => log.length < 2 }
    let inner : Ty := .struct (.cons { name := [66] } .bool (.cons { name := [67] } (.uint .w32 false) .nil))
    (encode (.struct (.cons { name := [65] } (.uint .w8 false) .nil)) (.struct [.uint 1]) s).1 = .ok () ∧
    (encode nestedTy (.struct [.uint 1, .struct [.bool true, .uint 5]]) s).1 = .err .write ∧
    (encodeT inner (.struct [.bool true, .uint 5])
      (encode (.struct (.cons { name := [65] } (.uint .w8 false) .nil)) (.struct [.uint 1]) s).2).1 = .err ⟨[[67]], true, .write⟩ :=
  ⟨by rfl, by rfl, by rfl⟩

/-- The full statement of C96 for decoding is false in Borsh: a truncated field of a library type, or of a pointer to one, is not named,
while the same field in the other encodings, or of the plain type, is. -/
theorem C96_violated :
    let lib := Ty.struct (.cons { name := [65] } (.lib .uint64) .nil)
    let ptr := Ty.struct (.cons { name := [65] } (.ptr (.lib .uint64)) .nil)
    let plain := Ty.struct (.cons { name := [65] } (.uint .w64 false) .nil)
    (decodeT lib lib.zero (Dec.new [1] .borsh)).1 = .err ⟨[], true, .notEnough⟩ ∧
    (decodeT ptr ptr.zero (Dec.new [1] .borsh)).1 = .err ⟨[], true, .notEnough⟩ ∧
    (decodeT lib lib.zero (Dec.new [1] .bin)).1 = .err ⟨[[65]], true, .notEnough⟩ ∧
    (decodeT lib lib.zero (Dec.new [1] .compactU16)).1 = .err ⟨[[65]], true, .notEnough⟩ ∧
    (decodeT plain plain.zero (Dec.new [1] .borsh)).1 = .err ⟨[[65]], true, .notEnough⟩ :=
  ⟨by rfl, by rfl, by rfl, by rfl, by rfl⟩

/-- Variants are not named, though they are fields: a truncated variant with a struct names only the field inside the struct, and a
128-bit variant that cannot be written names `Lo`. -/
theorem C96_variants :
    let t := Ty.struct (.cons { name := [69], tag := { isEnum := true } } .borshEnum
      (.cons { name := [65] } (.struct (.cons { name := [66] } .bool .nil)) (.cons { name := [85] } (.lib .uint128) .nil)))
    (decodeT t t.zero (Dec.new [0] .borsh)).1 = .err ⟨[[66]], true, .notEnough⟩ ∧
    (decodeT t t.zero (Dec.new [1] .borsh)).1 = .err ⟨[], true, .notEnough⟩ ∧
    (encodeT t (.struct [.uint 1, .struct [.bool false], .u128 1 2 none])
      { enc := .borsh, count := 0, cur := none, log := [], sink := fun log _ => log.length < 1 }).1 = .err ⟨[[76, 111]], true, .write⟩ ∧
    (encodeT t (.struct [.uint 1, .struct [.bool false], .u128 1 2 none])
      { enc := .borsh, count := 0, cur := none, log := [], sink := fun log _ => log.length < 2 }).1 = .err ⟨[[72, 105]], true, .write⟩ :=
  ⟨by rfl, by rfl, by rfl, by rfl⟩

/-! ### C97 -/

/-- C97, encoding: `errors.Is` finds the cause of every error, in particular the writer's. -/
theorem C97_encode (t : Ty) (v : Val) (s : Enc) (r : Report) (h : (encodeT t v s).1 = .err r) :
    r.found = true ∧ (encode t v s).1 = .err r.cause := by
  have hs : (encode t v s).1 = .err r.cause := by rw [C96_encode_same, h]; rfl
  refine ⟨?_, hs⟩
  have hn : s.enc ≠ .other := by
    intro hn
    rw [encode_other hn] at hs
    cases hs
  rcases hx : encodeT t v s with ⟨q, s'⟩
  rw [hx] at h
  simp only at h
  subst h
  rw [encodeT_eq hn] at hx
  exact encT_finds s.enc t {} v _ r s' hx

/-- C97, decoding: the cause is found for types without presence flags and without `HexBytes`, `Varint16`, `Varuint16`, `Varuint32` and
`Float128`. Partial: it is not found for those (`C97_violated`). -/
theorem C97_decode_partial (t : Ty) (ht : Spec.clear t = true) (old : Val) (d : Dec) (r : Report) (h : (decodeT t old d).1 = .err r) :
    r.found = true ∧ (decode t old d).1 = .err r.cause := by
  have hs : (decode t old d).1 = .err r.cause := by rw [C96_decode_same, h]; rfl
  refine ⟨?_, hs⟩
  have hn : d.enc ≠ .other := by
    intro hn
    rw [decode_other hn] at hs
    cases hs
  rcases hx : decodeT t old d with ⟨q, d'⟩
  rw [hx] at h
  simp only at h
  subst h
  rw [decodeT_eq hn] at hx
  exact decT_finds d.enc t ht {} old _ r d' hx

/-- For those library types the cause is never found. -/
theorem C97_hidden (l : Lib) (hl : Spec.opaqueLib l = true) (old : Val) (d : Dec) (r : Report)
    (h : (decodeT (.lib l) old d).1 = .err r) : r.found = false := by
  have hn : d.enc ≠ .other := by
    intro hn
    have := decode_other (t := .lib l) (v := old) hn
    rw [C96_decode_same, h] at this
    cases this
  rw [decodeT_eq hn] at h
  simp only [decT] at h
  have key : ∀ x : T Dec Val, ∀ d', (x.asText d').1 = .err r → r.found = false := by
    intro x d' hx
    unfold T.asText at hx
    rcases hq : x d' with ⟨q, d2⟩
    rw [hq] at hx
    cases q with
    | ok a => cases hx
    | panic => cases hx
    | err y => cases hx; rfl
  cases l <;> simp [Spec.opaqueLib] at hl <;> exact key _ _ h

/-- The full statement of C97 is false: a truncated `Varint16`, `Varuint16` or `Varuint32` hides `ErrVarIntBufferSize`, which a truncated
`Varint32` shows; a truncated `HexBytes` hides it too. -/
theorem C97_violated :
    (decodeT (.lib .varint16) (.int 0) (Dec.new [] .bin)).1 = .err ⟨[], false, .varint⟩ ∧
    (decodeT (.lib .varuint16) (.uint 0) (Dec.new [] .bin)).1 = .err ⟨[], false, .varint⟩ ∧
    (decodeT (.lib .varuint32) (.uint 0) (Dec.new [] .bin)).1 = .err ⟨[], false, .varint⟩ ∧
    (decodeT (.lib .hexBytes) (.bytes none) (Dec.new [] .bin)).1 = .err ⟨[], false, .varint⟩ ∧
    (decodeT (.lib .varint32) (.int 0) (Dec.new [] .bin)).1 = .err ⟨[], true, .varint⟩ :=
  ⟨by rfl, by rfl, by rfl, by rfl, by rfl⟩

/-- The presence flag of an optional field, any encoding: when it cannot be read the error names the field and the cause is lost.  The field is
reached if the fields before it can be decoded. -/
theorem C97_flag {fs : Fields} {us : List Val} (hl : us.length = fs.length) (m : FieldMeta) (t : Ty) (v y : Val) (d d1 d2 : Dec) (x : Err)
    (hn : d.enc ≠ .other) (hext : fs.extended = false) (hne : d.enc = .borsh → (fs.append (.cons m t .nil)).isEnum = false ∧ t.directLib = none)
    (hlib : t.asLib = none) (hskip : m.tag.skip = false) (hexp : m.exported = true) (hopt : m.tag.option = true)
    (hbin : m.tag.binExt = false) (hok : decode (.struct fs) (.struct us) d = (.ok y, d1))
    (herr : readFlag d.enc { d1 with cur := some m.tag.order } = (.err x, d2)) (gs : Fields) (vs : List Val) :
    decodeT (.struct (fs.append (.cons m t gs))) (.struct (us ++ v :: vs)) d = (.err ⟨[m.name], false, x⟩, d2) := by
  have hne0 : d.enc = .borsh → (fs.append (.cons m t gs)).isEnum = false := fun h => by
    rw [Fields.isEnum_append fs m t gs .nil]; exact (hne h).1
  rw [decode_struct hn fun h => Fields.isEnum_prefix (hne h).1] at hok
  obtain ⟨xs, hok', rfl⟩ := map_ok hok
  obtain ⟨sm, hsm, happ⟩ := decFieldsT_append d.enc fs [] false us hl _ _ _ hok'
  have hf : ∀ core, decFieldT d.enc t (fieldOpt m sm) v core d1 = (.err ⟨[], false, x⟩, d2) := by
    intro core
    unfold decFieldT
    rw [T.bind_ok (show T.of (setCurD (fieldOpt m sm).order) d1 = (.ok (), { d1 with cur := some m.tag.order }) from rfl),
      if_pos (show (fieldOpt m sm).optional = true from hopt), if_neg (by simp [hlib])]
    refine T.bind_err ?_
    unfold T.asText T.of
    rw [herr]
  have hb : decFieldsT d.enc (.cons m t gs) sm (false || fs.extended) (v :: vs) d1 = (.err ⟨[m.name], false, x⟩, d2) := by
    have hdl : (if d.enc = .borsh then t.directLib else none) = none := by
      by_cases h : d.enc = .borsh
      · rw [if_pos h]; exact (hne h).2
      · rw [if_neg h]
    rw [hext]
    simp only [decFieldsT, hdl]
    rw [if_neg (by simp [hskip]), if_neg (by simp),
      T.bind_ok (show T.of (extensionEnds m) d1 = (.ok false, d1) by unfold extensionEnds; rw [if_neg (by simp [hbin])]; rfl),
      if_neg (by simp [hexp])]
    exact T.bind_err (by unfold T.inField; rw [hf])
  rw [decodeT_struct hn hne0, T.bind_err (r := ⟨[m.name], false, x⟩) (s' := d2)]
  rw [happ, T.bind_err hb]

/-- `struct{A bool; B uint8 "optional"}` cut after `A`. -/
example (e : Encoding) (he : e ≠ .other) : ∃ d2, decodeT (.struct (.cons { name := [65] } .bool (.cons { name := [66], tag := { option := true } }
    (.uint .w8 false) .nil))) (.struct [.bool false, .uint 0]) (Dec.new [1] e) = (.err ⟨[[66]], false, .notEnough⟩, d2) := by
  cases e with
  | other => exact absurd rfl he
  | _ => exact ⟨_, C97_flag (fs := .cons { name := [65] } .bool .nil) (us := [.bool false]) rfl { name := [66], tag := { option := true } }
      (.uint .w8 false) (.uint 0) (.struct [.bool true]) (Dec.new [1] _) _ _ .notEnough (by simp [Dec.new]) rfl (fun _ => ⟨rfl, rfl⟩) rfl rfl rfl rfl rfl rfl
      rfl .nil []⟩

/-- Variants: apart from the reports `UnmarshalBinaryVariant` does what it does. -/
theorem C97_variant_same (def_ : VariantDef) (d : Dec) :
    unmarshalVariant def_ d = ((unmarshalVariantT def_ d).1.plain, (unmarshalVariantT def_ d).2) := by
  have : (unmarshalVariantT def_).plain = unmarshalVariant def_ := by
    unfold unmarshalVariantT unmarshalVariant
    simp only [plain_bind, plain_asText, plain_of]
    congr 1
    funext id
    rcases def_.typeOf id with _ | _ | t
    · exact plain_of _
    · exact plain_of _
    · cases t <;> simp only [plain_bind, plain_asText, plain_pure, decodeT_plain]
  rw [← this]; rfl

/-- Variants: the cause of an error is found only if the error is that no type has the id; every other cause (of the id or of the value) is
lost. -/
theorem C97_variant (def_ : VariantDef) (d : Dec) (r : Report) (h : (unmarshalVariantT def_ d).1 = .err r) :
    r.found = true ↔ ∃ id d', readVariantID def_.encoding d = (.ok id, d') ∧ ∀ t, def_.typeOf id ≠ some (some t) := by
  have key : ∀ {α : Type} (x : T Dec α) (d : Dec), (∃ a d', x.asText d = (.ok a, d') ∧ x d = (.ok a, d')) ∨
      (∃ r d', x.asText d = (.err r, d') ∧ r.found = false ∧ ∃ r', x d = (.err r', d')) ∨ ∃ d', x.asText d = (.panic, d') ∧ x d = (.panic, d') := by
    intro α x d
    unfold T.asText
    rcases x d with ⟨q, d'⟩
    cases q with
    | ok a => exact .inl ⟨a, d', rfl, rfl⟩
    | err r => exact .inr (.inl ⟨_, d', rfl, rfl, r, rfl⟩)
    | panic => exact .inr (.inr ⟨d', rfl, rfl⟩)
  have hof : ∀ {a d'}, T.of (readVariantID def_.encoding) d = (.ok a, d') ↔ readVariantID def_.encoding d = (.ok a, d') := by
    intro a d'
    unfold T.of
    rcases readVariantID def_.encoding d with ⟨q, d2⟩
    cases q <;> simp
  unfold unmarshalVariantT at h
  rcases key (T.of (readVariantID def_.encoding)) d with ⟨id, d1, h1, h1'⟩ | ⟨r', d1, h1, hf, r'', h1'⟩ | ⟨d1, h1, -⟩
  · rw [T.bind_ok h1] at h
    rw [hof] at h1'
    have hrest : ∀ (t : Ty) (f : Val → T Dec BaseVariant), (∀ x d', ∃ b, f x d' = (.ok b, d')) →
        (((decodeT t t.zero).asText >>= f) d1).1 = .err r → r.found = false := by
      intro t f hf h
      rcases key (decodeT t t.zero) d1 with ⟨a, d2, h2, -⟩ | ⟨r', d2, h2, hr, -⟩ | ⟨d2, h2, -⟩
      · rw [T.bind_ok h2] at h
        obtain ⟨b, hb⟩ := hf a d2
        rw [hb] at h; cases h
      · rw [T.bind_err h2] at h; cases h; exact hr
      · rw [T.bind_panic h2] at h; cases h
    constructor
    · intro hfound
      refine ⟨id, d1, h1', fun t ht => ?_⟩
      rw [ht] at h
      have : r.found = false := by
        revert h
        cases t <;> intro h <;> exact hrest _ _ (fun x d' => ⟨_, rfl⟩) h
      rw [hfound] at this; cases this
    · rintro ⟨id', d', h', hno⟩
      rw [h1'] at h'
      cases h'
      rcases ht : def_.typeOf id with _ | _ | t
      · rw [ht] at h; cases h; rfl
      · rw [ht] at h; cases h; rfl
      · exact absurd ht (hno t)
  · rw [T.bind_err h1] at h
    cases h
    constructor
    · intro h'; rw [hf] at h'; cases h'
    · rintro ⟨id, d', h', -⟩
      rw [← hof, h1'] at h'
      cases h'
  · rw [T.bind_panic h1] at h; cases h

/-- One type `uint16` with id 0 in one byte: an empty input hides the cause, so does a cut value, an unknown id is shown. -/
example : ∃ v, newVariantDef (fun x => x) .uint8 [⟨[97], some (.uint .w16 false)⟩] = .ok v ∧
    (unmarshalVariantT v (Dec.new [] .bin)).1 = .err ⟨[], false, .notEnough⟩ ∧
    (unmarshalVariantT v (Dec.new [0, 1] .bin)).1 = .err ⟨[], false, .notEnough⟩ ∧
    (unmarshalVariantT v (Dec.new [1, 1] .bin)).1 = .err ⟨[], true, .unknownVariant⟩ := ⟨_, rfl, by rfl, by rfl, by rfl⟩

/-- A type without them, whose errors are found at any depth: here the missing bytes of a slice in a field. -/
example : Spec.clear nestedTy = true ∧ Spec.clear (.struct (.cons { name := [65] } (.slice .bool) .nil)) = true ∧
    (decodeT (.struct (.cons { name := [65] } (.slice .bool) .nil)) (.struct [.seq none]) (Dec.new [3, 1, 1] .bin)).1 =
      .err ⟨[[65]], true, .eof⟩ := ⟨by rfl, by rfl, by rfl⟩

end Verif.Props
