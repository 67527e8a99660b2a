import Verif.Proofs.ReportPaths
/-! The first field that fails is the one in the report. -/
set_option linter.unusedSimpArgs false
namespace Verif
open Spec T

theorem Fields.isEnum_cons (m : FieldMeta) (t : Ty) (gs gs' : Fields) : (Fields.cons m t gs).isEnum = (Fields.cons m t gs').isEnum := by
  cases t <;> rfl

theorem Fields.isEnum_append (fs : Fields) (m : FieldMeta) (t : Ty) (gs gs' : Fields) :
    (fs.append (.cons m t gs)).isEnum = (fs.append (.cons m t gs')).isEnum := by
  cases fs <;> simp only [Fields.append] <;> exact Fields.isEnum_cons _ _ _ _

theorem Fields.isEnum_prefix {fs gs : Fields} (h : (fs.append gs).isEnum = false) : fs.isEnum = false := by
  cases fs with
  | nil => rfl
  | cons m t fs =>
    simp only [Fields.append] at h
    rw [Fields.isEnum_cons m t fs (fs.append gs)]
    exact h

/-! ### encoding -/

theorem encode_struct {fs : Fields} {vs : List Val} {s : Enc} (hn : s.enc ≠ .other) (hne : s.enc = .borsh → fs.isEnum = false) :
    encode (.struct fs) (.struct vs) s = encFields s.enc fs [] vs { s with cur := some .le } := by
  unfold encode
  rw [M.bind_apply, M.get_apply]
  simp only []
  rw [if_neg hn]
  rw [M.bind_ok (show setCurE .le s = (.ok (), { s with cur := some .le }) from rfl)]
  simp only [encCore]
  unfold encStruct
  rw [if_neg (by rintro ⟨h1, h2⟩; rw [hne h1] at h2; cases h2)]

theorem of_get {σ : Type} (s : σ) : T.of (M.get : M σ σ) s = (.ok s, s) := rfl

theorem encodeT_eq {t : Ty} {v : Val} {s : Enc} (hn : s.enc ≠ .other) :
    encodeT t v s = encT s.enc t {} v { s with cur := some .le } := by
  unfold encodeT
  rw [T.bind_ok (of_get s), if_neg hn]
  exact T.bind_ok (show T.of (setCurE .le) s = (.ok (), { s with cur := some .le }) from rfl)

theorem encodeT_struct {fs : Fields} {vs : List Val} {s : Enc} (hn : s.enc ≠ .other) (hne : s.enc = .borsh → fs.isEnum = false) :
    encodeT (.struct fs) (.struct vs) s = encFieldsT s.enc fs [] vs { s with cur := some .le } := by
  rw [encodeT_eq hn]
  simp only [encT]
  unfold encStructT
  rw [if_neg (by rintro ⟨h1, h2⟩; rw [hne h1] at h2; cases h2)]

theorem encode_other {t : Ty} {v : Val} {s : Enc} (h : s.enc = .other) : (encode t v s).1 = .panic := by
  unfold encode
  rw [M.bind_apply, M.get_apply]
  simp only []
  rw [if_pos h]
  rfl

/-- The field loop fails at its first field. -/
theorem encFieldsT_head {e : Encoding} {m : FieldMeta} {t : Ty} {sm : List (Bytes × Int)} {v : Val} {s s' : Enc} {r : Report}
    (h : encFieldsT e (.cons m t .nil) sm [v] s = (.err r, s')) :
    m.tag.skip = false ∧ m.exported = true ∧ (∀ fs vs, encFieldsT e (.cons m t fs) sm (v :: vs) s = (.err r, s')) ∧
      ∃ sm' r', (m.name ≠ [] → m.tag.sizeOf ≠ m.name → lookupSize m.name sm' = lookupSize m.name sm) ∧
        r = { r' with fields := m.name :: r'.fields } ∧
        (T.of (setCurE m.tag.order) >>= fun _ => T.of (encFlags e t (fieldOpt m sm') v) >>= fun more =>
          if more then encT e t (fieldOpt m sm') v else pure ()) s = (.err r', s') := by
  simp only [encFieldsT] at h
  by_cases hs : m.tag.skip = true
  · rw [if_pos hs] at h; cases h
  · rw [if_neg hs] at h
    rcases recordSize_cases m t v sm s with hr | ⟨sm', hr, hk⟩
    · rw [T.bind_panic (s' := s) (by unfold T.of; rw [hr])] at h; cases h
    · have hr' : T.of (recordSize m t v sm) s = (.ok sm', s) := by unfold T.of; rw [hr s]
      rw [T.bind_ok hr'] at h
      by_cases hx : m.exported = true
      · rw [if_pos hx] at h
        rcases hw : (T.of (setCurE m.tag.order) >>= fun _ => T.of (encFlags e t (fieldOpt m sm') v) >>= fun more =>
          if more then encT e t (fieldOpt m sm') v else pure ()) s with ⟨q, s2⟩
        cases q with
        | ok a => rw [T.bind_ok (s' := s2) (a := a) (by unfold T.inField; rw [hw])] at h; cases h
        | panic => rw [T.bind_panic (s' := s2) (by unfold T.inField; rw [hw])] at h; cases h
        | err r' =>
          rw [T.bind_err (s' := s2) (r := { r' with fields := m.name :: r'.fields }) (by unfold T.inField; rw [hw])] at h
          simp only [Prod.mk.injEq, Told.err.injEq] at h
          obtain ⟨rfl, rfl⟩ := h
          refine ⟨by simpa using hs, hx, fun fs vs => ?_, sm', r', fun hn => hk _ hn, rfl, hw⟩
          simp only [encFieldsT]
          rw [if_neg hs, T.bind_ok hr', if_pos hx]
          exact T.bind_err (by unfold T.inField; rw [hw])
      · rw [if_neg hx] at h; cases h

theorem encode_first {fs : Fields} {us : List Val} (hl : us.length = fs.length) {m : FieldMeta} {t : Ty} {v : Val} {s s1 s2 : Enc} {x : Err}
    (hne : s.enc = .borsh → (fs.append (.cons m t .nil)).isEnum = false)
    (hok : encode (.struct fs) (.struct us) s = (.ok (), s1))
    (herr : encode (.struct (fs.append (.cons m t .nil))) (.struct (us ++ [v])) s = (.err x, s2)) :
    m.tag.skip = false ∧ m.exported = true ∧ ∃ sm' r', r'.cause = x ∧
      (m.name ≠ [] → m.tag.sizeOf ≠ m.name → fs.uncounted m.name → lookupSize m.name sm' = none) ∧
      (∀ gs vs, encodeT (.struct (fs.append (.cons m t gs))) (.struct (us ++ v :: vs)) s =
        (.err { r' with fields := m.name :: r'.fields }, s2)) ∧
      (T.of (setCurE m.tag.order) >>= fun _ => T.of (encFlags s.enc t (fieldOpt m sm') v) >>= fun more =>
          if more then encT s.enc t (fieldOpt m sm') v else pure ()) s1 = (.err r', s2) := by
  have hn : s.enc ≠ .other := by
    intro h
    have := encode_other (t := .struct fs) (v := .struct us) h
    rw [hok] at this
    cases this
  have hne0 : ∀ gs, s.enc = .borsh → (fs.append (.cons m t gs)).isEnum = false := fun gs h => by
    rw [Fields.isEnum_append fs m t gs .nil]; exact hne h
  rw [encode_struct hn fun h => Fields.isEnum_prefix (hne h)] at hok
  obtain ⟨sm, hsm, happ⟩ := encFieldsT_append s.enc fs [] us hl _ _ hok
  rw [encode_struct hn hne] at herr
  rw [← encFieldsT_plain] at herr
  obtain ⟨r, hr, hc⟩ := of_plain_err herr
  rw [happ] at hr
  obtain ⟨h1, h2, h3, sm', r', h4, rfl, h5⟩ := encFieldsT_head hr
  refine ⟨h1, h2, sm', r', hc, ?_, ?_, h5⟩
  · intro ha hb hu
    rw [h4 ha hb, hsm _ ha hu]; rfl
  · intro gs vs
    rw [encodeT_struct hn (hne0 gs), happ, h3]

/-- A failing field loop has a first failing field. -/
theorem encFields_split (e : Encoding) : (fs : Fields) → (sm : List (Bytes × Int)) → (vs : List Val) → (s s' : Enc) → (x : Err) →
    encFields e fs sm vs s = (.err x, s') →
    ∃ pre m t post us v ws s1, fs = pre.append (.cons m t post) ∧ vs = us ++ v :: ws ∧ us.length = pre.length ∧
      encFields e pre sm us s = (.ok (), s1) ∧ encFields e (pre.append (.cons m t .nil)) sm (us ++ [v]) s = (.err x, s')
  | .nil, sm, vs, s, s', x, h => by simp only [encFields] at h; cases h
  | .cons _ _ _, sm, [], s, s', x, h => by simp only [encFields] at h; cases h
  | .cons m t fs, sm, v :: vs, s, s', x, h => by
    simp only [encFields] at h
    have keep : ∀ sm1 s1, (∀ gs ws, encFields e (.cons m t gs) sm (v :: ws) s = encFields e gs sm1 ws s1) →
        encFields e fs sm1 vs s1 = (.err x, s') →
        ∃ pre m' t' post us v' ws s1, Fields.cons m t fs = pre.append (.cons m' t' post) ∧ v :: vs = us ++ v' :: ws ∧
          us.length = pre.length ∧ encFields e pre sm us s = (.ok (), s1) ∧
          encFields e (pre.append (.cons m' t' .nil)) sm (us ++ [v']) s = (.err x, s') := fun sm1 s1 hg hh => by
      obtain ⟨pre, m', t', post, us, v', ws, s2, rfl, rfl, hl, h1, h2⟩ := encFields_split e fs sm1 vs s1 s' x hh
      exact ⟨.cons m t pre, m', t', post, v :: us, v', ws, s2, by simp [Fields.append], rfl, by simp [Fields.length, hl], by rw [hg]; exact h1,
        by simp only [Fields.append, List.cons_append]; rw [hg]; exact h2⟩
    by_cases hs : m.tag.skip = true
    · rw [if_pos hs] at h
      exact keep sm s (fun gs ws => by simp only [encFields]; rw [if_pos hs]) h
    · rw [if_neg hs] at h
      rcases recordSize_cases m t v sm s with hr | ⟨sm1, hr, -⟩
      · rw [M.bind_panic hr] at h; cases h
      · rw [M.bind_ok (hr s)] at h
        by_cases hx : m.exported = true
        · rw [if_pos hx] at h
          rw [M.bind_ok (show setCurE m.tag.order s = (.ok (), { s with cur := some m.tag.order }) from rfl)] at h
          have first : ∀ {s2}, (∀ gs ws, encFields e (.cons m t gs) sm (v :: ws) s = (.err x, s2)) → s2 = s' →
              ∃ pre m' t' post us v' ws s1, Fields.cons m t fs = pre.append (.cons m' t' post) ∧ v :: vs = us ++ v' :: ws ∧
                us.length = pre.length ∧ encFields e pre sm us s = (.ok (), s1) ∧
                encFields e (pre.append (.cons m' t' .nil)) sm (us ++ [v']) s = (.err x, s') := by
            intro s2 hg hs2
            refine ⟨.nil, m, t, fs, [], v, vs, s, rfl, rfl, rfl, rfl, ?_⟩
            have := hg .nil []
            rw [hs2] at this
            exact this
          have unf : ∀ gs ws, encFields e (.cons m t gs) sm (v :: ws) s =
              (encFlags e t (fieldOpt m sm1) v >>= fun more =>
                if more then encCore e t (fieldOpt m sm1) v >>= fun _ => encFields e gs sm1 ws else encFields e gs sm1 ws)
                { s with cur := some m.tag.order } := by
            intro gs ws
            simp only [encFields]
            rw [if_neg hs, M.bind_ok (hr s), if_pos hx,
              M.bind_ok (show setCurE m.tag.order s = (.ok (), { s with cur := some m.tag.order }) from rfl)]
          rcases hf : encFlags e t (fieldOpt m sm1) v { s with cur := some m.tag.order } with ⟨q, s2⟩
          cases q with
          | panic => rw [M.bind_panic hf] at h; cases h
          | err y =>
            rw [M.bind_err hf] at h
            cases h
            exact first (fun gs ws => by rw [unf, M.bind_err hf]) rfl
          | ok more =>
            rw [M.bind_ok hf] at h
            cases more with
            | false =>
              rw [if_neg (by simp)] at h
              exact keep sm1 s2 (fun gs ws => by rw [unf, M.bind_ok hf, if_neg (by simp)]) h
            | true =>
              rw [if_pos rfl] at h
              rcases hc : encCore e t (fieldOpt m sm1) v s2 with ⟨q, s3⟩
              cases q with
              | panic => rw [M.bind_panic hc] at h; cases h
              | err y =>
                rw [M.bind_err hc] at h
                cases h
                exact first (fun gs ws => by rw [unf, M.bind_ok hf, if_pos rfl, M.bind_err hc]) rfl
              | ok u =>
                rw [M.bind_ok hc] at h
                exact keep sm1 s3 (fun gs ws => by rw [unf, M.bind_ok hf, if_pos rfl, M.bind_ok hc]) h
        · rw [if_neg hx] at h
          exact keep sm1 s (fun gs ws => by simp only [encFields]; rw [if_neg hs, M.bind_ok (hr s), if_neg hx]) h

/-! ### decoding -/

theorem decode_struct {fs : Fields} {vs : List Val} {d : Dec} (hn : d.enc ≠ .other) (hne : d.enc = .borsh → fs.isEnum = false) :
    decode (.struct fs) (.struct vs) d =
      (decFields d.enc fs [] false vs >>= fun xs => pure (Val.struct xs)) { d with cur := some .le } := by
  unfold decode
  rw [M.bind_apply, M.get_apply]
  simp only []
  rw [if_neg hn]
  rw [M.bind_ok (show setCurD .le d = (.ok (), { d with cur := some .le }) from rfl)]
  simp only [decCore, Val.fields]
  unfold decStruct
  rw [if_neg (by rintro ⟨h1, h2⟩; rw [hne h1] at h2; cases h2)]

theorem decodeT_eq {t : Ty} {v : Val} {d : Dec} (hn : d.enc ≠ .other) :
    decodeT t v d = decT d.enc t {} v { d with cur := some .le } := by
  unfold decodeT
  rw [T.bind_ok (of_get d), if_neg hn]
  exact T.bind_ok (show T.of (setCurD .le) d = (.ok (), { d with cur := some .le }) from rfl)

theorem decodeT_struct {fs : Fields} {vs : List Val} {d : Dec} (hn : d.enc ≠ .other) (hne : d.enc = .borsh → fs.isEnum = false) :
    decodeT (.struct fs) (.struct vs) d =
      (decFieldsT d.enc fs [] false vs >>= fun xs => pure (Val.struct xs)) { d with cur := some .le } := by
  rw [decodeT_eq hn]
  simp only [decT, Val.fields]
  unfold decStructT
  rw [if_neg (by rintro ⟨h1, h2⟩; rw [hne h1] at h2; cases h2)]

theorem decode_other {t : Ty} {v : Val} {d : Dec} (h : d.enc = .other) : (decode t v d).1 = .panic := by
  unfold decode
  rw [M.bind_apply, M.get_apply]
  simp only []
  rw [if_pos h]
  rfl

theorem mapT_err {σ α β : Type} {x : T σ α} {f : α → β} {s s1 : σ} {r : Report} (h : (x >>= fun a => pure (f a)) s = (.err r, s1)) :
    x s = (.err r, s1) := by
  rw [T.bind_apply] at h
  rcases hx : x s with ⟨q, s2⟩
  rw [hx] at h
  cases q with
  | ok a => cases h
  | err y => cases h; rfl
  | panic => cases h

theorem map_err {σ α β : Type} {x : M σ α} {f : α → β} {s s1 : σ} {r : Err} (h : (x >>= fun a => pure (f a)) s = (.err r, s1)) :
    x s = (.err r, s1) := by
  rw [M.bind_apply] at h
  rcases hx : x s with ⟨q, s2⟩
  rw [hx] at h
  cases q with
  | ok a => cases h
  | err y => cases h; rfl
  | panic => cases h

theorem extensionEnds_cases (m : FieldMeta) (d : Dec) : extensionEnds m d = (.panic, d) ∨ ∃ b, extensionEnds m d = (.ok b, d) := by
  unfold extensionEnds
  split
  · have hr : (∃ b, restM d = (.ok b, d)) ∨ restM d = (.panic, d) := by
      unfold restM
      split
      · exact .inl ⟨_, rfl⟩
      · exact .inr rfl
    unfold noBytesLeft
    rcases hr with ⟨b, hr⟩ | hr
    · exact .inr ⟨_, by rw [M.bind_ok hr]; rfl⟩
    · exact .inl (by rw [M.bind_panic hr])
  · exact .inr ⟨false, rfl⟩

/-- The field loop fails at its first field. -/
theorem decFieldsT_head {e : Encoding} {m : FieldMeta} {t : Ty} {sm : List (Bytes × Int)} {seen : Bool} {v : Val} {d d' : Dec} {r : Report}
    (h : decFieldsT e (.cons m t .nil) sm seen [v] d = (.err r, d')) :
    m.tag.skip = false ∧ m.exported = true ∧ (∀ fs vs, decFieldsT e (.cons m t fs) sm seen (v :: vs) d = (.err r, d')) ∧
      ((∃ l p, e = .borsh ∧ t.directLib = some (l, p) ∧ unmarshalLibT l l.zero d = (.err r, d')) ∨
       (¬ (e = .borsh ∧ t.directLib.isSome = true) ∧ ∃ r', r = { r' with fields := m.name :: r'.fields } ∧
        decFieldT e t (fieldOpt m sm) v (decT e t (fieldOpt m sm) v) d = (.err r', d'))) := by
  simp only [decFieldsT] at h
  by_cases hs : m.tag.skip = true
  · rw [if_pos hs] at h; cases h
  · rw [if_neg hs] at h
    by_cases hseen : (!m.tag.binExt && seen) = true
    · rw [if_pos hseen] at h; cases h
    · rw [if_neg hseen] at h
      rcases extensionEnds_cases m d with hx | ⟨b, hx⟩
      · rw [T.bind_panic (s' := d) (by unfold T.of; rw [hx])] at h; cases h
      · have hx' : T.of (extensionEnds m) d = (.ok b, d) := by unfold T.of; rw [hx]
        rw [T.bind_ok hx'] at h
        by_cases ha : (b || !m.exported) = true
        · rw [if_pos ha] at h; cases h
        · rw [if_neg ha] at h
          have hm : m.exported = true := by
            cases hm : m.exported with
            | true => rfl
            | false => simp [hm] at ha
          rcases hdl : (if e = .borsh then t.directLib else none) with _ | ⟨l, isPtr⟩
          · simp only [hdl] at h
            rcases hw : decFieldT e t (fieldOpt m sm) v (decT e t (fieldOpt m sm) v) d with ⟨q, d2⟩
            cases q with
            | panic => rw [T.bind_panic (s' := d2) (by unfold T.inField; rw [hw])] at h; cases h
            | ok y =>
              rw [T.bind_ok (s' := d2) (a := y) (by unfold T.inField; rw [hw])] at h
              rcases recordSize_cases m t y sm d2 with hr | ⟨sm', hr, -⟩
              · rw [T.bind_panic (s' := d2) (by unfold T.of; rw [hr])] at h; cases h
              · rw [T.bind_ok (s' := d2) (a := sm') (by unfold T.of; rw [hr])] at h; cases h
            | err r' =>
              rw [T.bind_err (s' := d2) (r := { r' with fields := m.name :: r'.fields }) (by unfold T.inField; rw [hw])] at h
              simp only [Prod.mk.injEq, Told.err.injEq] at h
              obtain ⟨rfl, rfl⟩ := h
              refine ⟨by simpa using hs, hm, fun fs vs => ?_, .inr ⟨?_, r', rfl, rfl⟩⟩
              · simp only [decFieldsT]
                rw [if_neg hs, if_neg hseen, T.bind_ok hx', if_neg ha]
                simp only [hdl]
                exact T.bind_err (by unfold T.inField; rw [hw])
              · rintro ⟨he, hd⟩
                rw [if_pos he] at hdl
                rw [hdl] at hd
                cases hd
          · simp only [hdl] at h
            rcases hw : unmarshalLibT l l.zero d with ⟨q, d2⟩
            cases q with
            | panic => rw [T.bind_panic hw] at h; cases h
            | ok y => rw [T.bind_ok hw] at h; cases h
            | err r' =>
              rw [T.bind_err hw] at h
              simp only [Prod.mk.injEq, Told.err.injEq] at h
              obtain ⟨rfl, rfl⟩ := h
              refine ⟨by simpa using hs, hm, fun fs vs => ?_, .inl ⟨l, isPtr, ?_⟩⟩
              · simp only [decFieldsT]
                rw [if_neg hs, if_neg hseen, T.bind_ok hx', if_neg ha]
                simp only [hdl]
                exact T.bind_err hw
              · by_cases he : e = .borsh
                · rw [if_pos he] at hdl; exact ⟨he, hdl, hw⟩
                · rw [if_neg he] at hdl; cases hdl

theorem decode_first {fs : Fields} {us : List Val} (hl : us.length = fs.length) {m : FieldMeta} {t : Ty} {v y : Val} {d d1 d2 : Dec} {x : Err}
    (hne : d.enc = .borsh → (fs.append (.cons m t .nil)).isEnum = false)
    (hok : decode (.struct fs) (.struct us) d = (.ok y, d1))
    (herr : decode (.struct (fs.append (.cons m t .nil))) (.struct (us ++ [v])) d = (.err x, d2)) :
    m.tag.skip = false ∧ m.exported = true ∧ ∃ sm r, r.cause = x ∧
      (m.name ≠ [] → fs.uncounted m.name → lookupSize m.name sm = none) ∧
      (∀ gs vs, decodeT (.struct (fs.append (.cons m t gs))) (.struct (us ++ v :: vs)) d = (.err r, d2)) ∧
      ((∃ l p, d.enc = .borsh ∧ t.directLib = some (l, p) ∧ unmarshalLibT l l.zero d1 = (.err r, d2)) ∨
       (¬ (d.enc = .borsh ∧ t.directLib.isSome = true) ∧ ∃ r', r = { r' with fields := m.name :: r'.fields } ∧
        decFieldT d.enc t (fieldOpt m sm) v (decT d.enc t (fieldOpt m sm) v) d1 = (.err r', d2))) := by
  have hn : d.enc ≠ .other := by
    intro h
    have := decode_other (t := .struct fs) (v := .struct us) h
    rw [hok] at this
    cases this
  have hne0 : ∀ gs, d.enc = .borsh → (fs.append (.cons m t gs)).isEnum = false := fun gs h => by
    rw [Fields.isEnum_append fs m t gs .nil]; exact hne h
  rw [decode_struct hn fun h => Fields.isEnum_prefix (hne h)] at hok
  obtain ⟨xs, hok', rfl⟩ := map_ok hok
  obtain ⟨sm, hsm, happ⟩ := decFieldsT_append d.enc fs [] false us hl _ _ _ hok'
  rw [decode_struct hn hne] at herr
  have herr := map_err herr
  rw [← decFieldsT_plain] at herr
  obtain ⟨r, hr, hc⟩ := of_plain_err herr
  rw [happ] at hr
  have hr := mapT_err hr
  obtain ⟨h1, h2, h3, h4⟩ := decFieldsT_head hr
  refine ⟨h1, h2, sm, r, hc, ?_, ?_, h4⟩
  · intro ha hu
    rw [hsm _ ha hu]; rfl
  · intro gs vs
    rw [decodeT_struct hn (hne0 gs)]
    exact T.bind_err (by rw [happ]; exact T.bind_err (h3 gs vs))

/-- A failing field loop has a first failing field. -/
theorem decFields_split (e : Encoding) : (fs : Fields) → (sm : List (Bytes × Int)) → (seen : Bool) → (vs : List Val) → (d d' : Dec) →
    (x : Err) → decFields e fs sm seen vs d = (.err x, d') →
    ∃ pre m t post us v ws xs d1, fs = pre.append (.cons m t post) ∧ vs = us ++ v :: ws ∧ us.length = pre.length ∧
      decFields e pre sm seen us d = (.ok xs, d1) ∧ decFields e (pre.append (.cons m t .nil)) sm seen (us ++ [v]) d = (.err x, d')
  | .nil, sm, _, vs, s, s', x, h => by simp only [decFields] at h; cases h
  | .cons _ _ _, sm, _, [], s, s', x, h => by simp only [decFields] at h; cases h
  | .cons m t fs, sm, seen, v :: vs, d, d', x, h => by
    simp only [decFields] at h
    have keep : ∀ sm1 seen1 d1 y, (∀ gs ws, decFields e (.cons m t gs) sm seen (v :: ws) d =
          (decFields e gs sm1 seen1 ws >>= fun rest => pure (y :: rest)) d1) →
        decFields e fs sm1 seen1 vs d1 = (.err x, d') →
        ∃ pre m' t' post us v' ws xs d1, Fields.cons m t fs = pre.append (.cons m' t' post) ∧ v :: vs = us ++ v' :: ws ∧
          us.length = pre.length ∧ decFields e pre sm seen us d = (.ok xs, d1) ∧
          decFields e (pre.append (.cons m' t' .nil)) sm seen (us ++ [v']) d = (.err x, d') := fun sm1 seen1 d1 y hg hh => by
      obtain ⟨pre, m', t', post, us, v', ws, xs, d2, rfl, rfl, hl, h1, h2⟩ := decFields_split e fs sm1 seen1 vs d1 d' x hh
      exact ⟨.cons m t pre, m', t', post, v :: us, v', ws, y :: xs, d2, by simp [Fields.append], rfl, by simp [Fields.length, hl],
        by rw [hg, M.bind_ok h1]; rfl,
        by simp only [Fields.append, List.cons_append]; rw [hg, M.bind_err h2]⟩
    have first : (∀ gs ws, decFields e (.cons m t gs) sm seen (v :: ws) d = (.err x, d')) →
        ∃ pre m' t' post us v' ws xs d1, Fields.cons m t fs = pre.append (.cons m' t' post) ∧ v :: vs = us ++ v' :: ws ∧
          us.length = pre.length ∧ decFields e pre sm seen us d = (.ok xs, d1) ∧
          decFields e (pre.append (.cons m' t' .nil)) sm seen (us ++ [v']) d = (.err x, d') := fun hg =>
      ⟨.nil, m, t, fs, [], v, vs, [], d, by simp [Fields.append], rfl, rfl, by simp only [decFields]; rfl, by
        simp only [Fields.append, List.nil_append]; exact hg .nil []⟩
    by_cases hs : m.tag.skip = true
    · rw [if_pos hs] at h
      exact keep sm seen d v (fun gs ws => by simp only [decFields]; rw [if_pos hs]) (map_err h)
    · rw [if_neg hs] at h
      by_cases hseen : (!m.tag.binExt && seen) = true
      · rw [if_pos hseen] at h; cases h
      · rw [if_neg hseen] at h
        rcases extensionEnds_cases m d with hx | ⟨b, hx⟩
        · rw [M.bind_panic hx] at h; cases h
        · rw [M.bind_ok hx] at h
          by_cases ha : (b || !m.exported) = true
          · rw [if_pos ha] at h
            exact keep sm (seen || m.tag.binExt) d v (fun gs ws => by
              simp only [decFields]; rw [if_neg hs, if_neg hseen, M.bind_ok hx, if_pos ha]) (map_err h)
          · rw [if_neg ha] at h
            rcases hdl : (if e = .borsh then t.directLib else none) with _ | ⟨l, isPtr⟩
            · simp only [hdl] at h
              have unf : ∀ gs ws, decFields e (.cons m t gs) sm seen (v :: ws) d =
                  (decField e t (fieldOpt m sm) v (decCore e t (fieldOpt m sm) v) >>= fun x => recordSize m t x sm >>= fun sm =>
                    decFields e gs sm (seen || m.tag.binExt) ws >>= fun rest => pure (x :: rest)) d := by
                intro gs ws
                simp only [decFields]
                rw [if_neg hs, if_neg hseen, M.bind_ok hx, if_neg ha]
                simp only [hdl]
              rcases hw : decField e t (fieldOpt m sm) v (decCore e t (fieldOpt m sm) v) d with ⟨q, d2⟩
              cases q with
              | panic => rw [M.bind_panic hw] at h; cases h
              | err y =>
                rw [M.bind_err hw] at h
                cases h
                exact first fun gs ws => by rw [unf, M.bind_err hw]
              | ok y =>
                rw [M.bind_ok hw] at h
                rcases recordSize_cases m t y sm d2 with hr | ⟨sm1, hr, -⟩
                · rw [M.bind_panic hr] at h; cases h
                · rw [M.bind_ok (hr d2)] at h
                  exact keep sm1 (seen || m.tag.binExt) d2 y (fun gs ws => by rw [unf, M.bind_ok hw, M.bind_ok (hr d2)]) (map_err h)
            · simp only [hdl] at h
              have unf : ∀ gs ws, decFields e (.cons m t gs) sm seen (v :: ws) d =
                  (unmarshalLib l l.zero >>= fun x => decFields e gs sm (seen || m.tag.binExt) ws >>= fun rest =>
                    pure ((if isPtr then .ptr (some x) else x) :: rest)) d := by
                intro gs ws
                simp only [decFields]
                rw [if_neg hs, if_neg hseen, M.bind_ok hx, if_neg ha]
                simp only [hdl]
              rcases hw : unmarshalLib l l.zero d with ⟨q, d2⟩
              cases q with
              | panic => rw [M.bind_panic hw] at h; cases h
              | err y =>
                rw [M.bind_err hw] at h
                cases h
                exact first fun gs ws => by rw [unf, M.bind_err hw]
              | ok y =>
                rw [M.bind_ok hw] at h
                exact keep sm (seen || m.tag.binExt) d2 _ (fun gs ws => by rw [unf, M.bind_ok hw]) (map_err h)

end Verif
