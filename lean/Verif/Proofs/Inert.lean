import Verif.Spec.Inert
import Verif.Proofs.Same
import Verif.Proofs.DecodeSafe
/-! Skipped and unexported fields neither influence the encoder nor are written by the decoder. -/
set_option linter.unusedSimpArgs false
namespace Verif
open Spec

theorem all2_length {α β : Type} {P : α → β → Prop} : ∀ {xs : List α} {ys : List β}, All2 P xs ys → xs.length = ys.length
  | [], [], _ => rfl
  | [], _ :: _, h => by simp [All2] at h
  | _ :: _, [], h => by simp [All2] at h
  | _ :: _, _ :: _, h => by simp only [All2] at h; simp [all2_length h.2]

theorem forIndexM_all2 {α : Type} {P : α → α → Prop} {f : α → EM Unit} (hf : ∀ x y, P x y → f x = f y) :
    ∀ (n : Nat) (xs ys : List α), All2 P xs ys → forIndexM f n xs = forIndexM f n ys
  | 0, _, _, _ => rfl
  | _ + 1, [], [], _ => rfl
  | _ + 1, [], _ :: _, h => by simp [All2] at h
  | _ + 1, _ :: _, [], h => by simp [All2] at h
  | n + 1, x :: xs, y :: ys, h => by
    simp only [All2] at h
    simp only [forIndexM]
    rw [hf x y h.1, forIndexM_all2 hf n xs ys h.2]

theorem forEachM_all2 {α : Type} {P : α → α → Prop} {f : α → EM Unit} (hf : ∀ x y, P x y → f x = f y) :
    ∀ (xs ys : List α), All2 P xs ys → forEachM f xs = forEachM f ys
  | [], [], _ => rfl
  | [], _ :: _, h => by simp [All2] at h
  | _ :: _, [], h => by simp [All2] at h
  | x :: xs, y :: ys, h => by
    simp only [All2] at h
    simp only [forEachM]
    rw [hf x y h.1, forEachM_all2 hf xs ys h.2]

theorem insertSorted_all2 {k : Kind} {R : Val → Val → Prop} {x y : Val × Val} (hxy : x.1 = y.1 ∧ R x.2 y.2) :
    ∀ {xs ys : List (Val × Val)}, All2 (fun a b => a.1 = b.1 ∧ R a.2 b.2) xs ys →
      All2 (fun a b => a.1 = b.1 ∧ R a.2 b.2) (insertSorted k x xs) (insertSorted k y ys)
  | [], [], _ => ⟨hxy, trivial⟩
  | [], _ :: _, h => by simp [All2] at h
  | _ :: _, [], h => by simp [All2] at h
  | a :: xs, b :: ys, h => by
    simp only [All2] at h
    simp only [insertSorted]
    rw [h.1.1, hxy.1]
    split
    · exact ⟨h.1, insertSorted_all2 hxy h.2⟩
    · exact ⟨hxy, h.1, h.2⟩

theorem sortEntries_all2 {k : Kind} {R : Val → Val → Prop} : ∀ {xs ys : List (Val × Val)},
    All2 (fun a b => a.1 = b.1 ∧ R a.2 b.2) xs ys → All2 (fun a b => a.1 = b.1 ∧ R a.2 b.2) (sortEntries k xs) (sortEntries k ys)
  | [], [], _ => trivial
  | [], _ :: _, h => by simp [All2] at h
  | _ :: _, [], h => by simp [All2] at h
  | x :: xs, y :: ys, h => by
    simp only [All2] at h
    exact insertSorted_all2 h.1 (sortEntries_all2 h.2)

theorem mapEntries_all2 (e : Encoding) (k : Ty) {R : Val → Val → Prop} {xs ys : List (Val × Val)}
    (h : All2 (fun a b => a.1 = b.1 ∧ R a.2 b.2) xs ys) :
    (∃ xs' ys', mapEntries e k xs = pure xs' ∧ mapEntries e k ys = pure ys' ∧
      All2 (fun a b => a.1 = b.1 ∧ R a.2 b.2) xs' ys') ∨ (mapEntries e k xs = M.panic ∧ mapEntries e k ys = M.panic) := by
  have hl := all2_length h
  unfold mapEntries
  split
  · unfold sortedEntries
    rw [hl]
    split
    · exact .inl ⟨xs, ys, rfl, rfl, h⟩
    · split
      · exact .inl ⟨_, _, rfl, rfl, sortEntries_all2 h⟩
      · exact .inr ⟨rfl, rfl⟩
  · exact .inl ⟨xs, ys, rfl, rfl, h⟩

theorem sameSent_refl_scalar {e : Encoding} {t : Ty} {x y : Val} (h : SameSent e t x y)
    (hk : t.kind ≠ .ptr ∧ t.kind ≠ .slice ∧ t.kind ≠ .array ∧ t.kind ≠ .map ∧ t.kind ≠ .struct) : x = y := by
  cases t <;> simp only [Ty.kind] at hk <;> first
    | (simp only [SameSent] at h; exact h)
    | (exact absurd rfl hk.1)
    | (exact absurd rfl hk.2.1)
    | (exact absurd rfl hk.2.2.1)
    | (exact absurd rfl hk.2.2.2.1)
    | (exact absurd rfl hk.2.2.2.2)

theorem sameSent_sizeof {e : Encoding} {t : Ty} {x y : Val} (h : SameSent e t x y) :
    sizeofVal t.kind x = sizeofVal t.kind y := by
  cases hk : t.kind with
  | ptr | slice | array | map | struct => simp [sizeofVal]
  | _ => rw [sameSent_refl_scalar h (by rw [hk]; simp)]

theorem recordSize_same {σ : Type} (m : FieldMeta) (t : Ty) (x y : Val) (sm : List (Bytes × Int))
    (h : m.tag.sizeOf = [] ∨ sizeofVal t.kind x = sizeofVal t.kind y) :
    (recordSize m t x sm : M σ _) = recordSize m t y sm := by
  unfold recordSize
  split
  · rfl
  · rename_i hs
    rw [h.resolve_left hs]

mutual
theorem encCore_same {e : Encoding} : (t : Ty) → (o : Opt) → (x y : Val) → SameSent e t x y →
    encCore e t o x = encCore e t o y
  | .lib l, o, x, y, h => by simp only [SameSent] at h; rw [h]
  | .ptr t, o, x, y, h => by
    by_cases hs : ∃ a b, x = .ptr (some a) ∧ y = .ptr (some b)
    · obtain ⟨a, b, rfl, rfl⟩ := hs
      simp only [SameSent] at h
      simp only [encCore, Option.getD_some]
      cases hl : t.asLib with
      | some l =>
        have : a = b := by
          cases t <;> simp only [Ty.asLib] at hl <;> try (cases hl; done)
          simpa only [SameSent] using h
        rw [this]
      | none =>
        simp only []
        rw [encCore_same t o a b h, encCore_same t {} a b h]
    · have : x = y := by
        cases x <;> cases y <;> try (simpa only [SameSent] using h)
        rename_i p q
        cases p <;> cases q <;> try (simpa only [SameSent] using h)
        exact absurd ⟨_, _, rfl, rfl⟩ hs
      rw [this]
  | .slice t, o, x, y, h => by
    by_cases hs : ∃ a b, x = .seq (some a) ∧ y = .seq (some b)
    · obtain ⟨a, b, rfl, rfl⟩ := hs
      simp only [SameSent] at h
      cases hu : t.uintKind with
      | some w => rw [hu] at h; simp at h; rw [h]
      | none =>
        rw [hu] at h
        simp only [Option.isSome_none, Bool.false_eq_true, if_false] at h
        simp only [encCore, hu, Option.getD_some, all2_length h]
        have := fun n => forIndexM_all2 (f := fun x => do setCurE .le; encCore e t {} x)
          (fun x y hxy => by rw [encCore_same t {} x y hxy]) n a b h
        simp only [this]
    · have : x = y := by
        cases x <;> cases y <;> try (simpa only [SameSent] using h)
        rename_i p q
        cases p <;> cases q <;> try (simpa only [SameSent] using h)
        exact absurd ⟨_, _, rfl, rfl⟩ hs
      rw [this]
  | .array n t, o, x, y, h => by
    by_cases hs : ∃ a b, x = .arr a ∧ y = .arr b
    · obtain ⟨a, b, rfl, rfl⟩ := hs
      simp only [SameSent] at h
      cases hu : t.uintKind with
      | some w => rw [hu] at h; simp at h; rw [h]
      | none =>
        rw [hu] at h
        simp only [Option.isSome_none, Bool.false_eq_true, if_false] at h
        simp only [encCore, hu]
        exact forIndexM_all2 (fun x y hxy => by rw [encCore_same t {} x y hxy]) n a b h
    · have : x = y := by
        cases x <;> cases y <;> try (simpa only [SameSent] using h)
        exact absurd ⟨_, _, rfl, rfl⟩ hs
      rw [this]
  | .map k t, o, x, y, h => by
    by_cases hs : ∃ a b, x = .map (some a) ∧ y = .map (some b)
    · obtain ⟨a, b, rfl, rfl⟩ := hs
      simp only [SameSent] at h
      simp only [encCore, Option.getD_some]
      rcases mapEntries_all2 e k (R := SameSent e t) h with ⟨xs, ys, h1, h2, h3⟩ | ⟨h1, h2⟩
      · have hbody := forEachM_all2 (f := fun x : Val × Val => (do
            setCurE .le
            encCore e k {} x.1
            if k.found x.1 then do
              setCurE .le
              encCore e t {} x.2
            else M.panic : EM Unit))
          (fun x y hxy => by rw [hxy.1, encCore_same t {} x.2 y.2 hxy.2]) xs ys h3
        rw [h1, h2]
        funext s
        simp only [M.bind_apply, M.pure_apply, all2_length h3, hbody]
      · rw [h1, h2]
    · have : x = y := by
        cases x <;> cases y <;> try (simpa only [SameSent] using h)
        rename_i p q
        cases p <;> cases q <;> try (simpa only [SameSent] using h)
        exact absurd ⟨_, _, rfl, rfl⟩ hs
      rw [this]
  | .struct fs, o, x, y, h => by
    by_cases hs : ∃ a b, x = .struct a ∧ y = .struct b
    · obtain ⟨a, b, rfl, rfl⟩ := hs
      simp only [SameSent] at h
      by_cases he : e = .borsh ∧ fs.isEnum = true
      · rw [if_pos he] at h; rw [h]
      · rw [if_neg he] at h
        simp only [encCore, encStruct, if_neg he]
        exact encFields_same fs [] a b h
    · have : x = y := by
        cases x <;> cases y <;> try (simpa only [SameSent] using h)
        exact absurd ⟨_, _, rfl, rfl⟩ hs
      rw [this]
  | .iface, _, x, y, h | .bool, _, x, y, h | .uint _ _, _, x, y, h | .int _ _, _, x, y, h | .borshEnum, _, x, y, h
  | .f32, _, x, y, h | .f64, _, x, y, h | .str, _, x, y, h | .plainInt, _, x, y, h | .plainUint, _, x, y, h
  | .other, _, x, y, h => by simp only [SameSent] at h; rw [h]
termination_by structural t => t
theorem encFields_same {e : Encoding} : (fs : Fields) → (sm : List (Bytes × Int)) → (xs ys : List Val) →
    SameSentFields e fs xs ys → encFields e fs sm xs = encFields e fs sm ys
  | .nil, _, _, _, _ => by simp only [encFields]
  | .cons m t fs, sm, [], [], _ => rfl
  | .cons m t fs, sm, [], _ :: _, h => by simp [SameSentFields] at h
  | .cons m t fs, sm, _ :: _, [], h => by simp [SameSentFields] at h
  | .cons m t fs, sm, x :: xs, y :: ys, h => by
    simp only [SameSentFields] at h
    obtain ⟨h1, h2⟩ := h
    have hrec := fun sm => encFields_same fs sm xs ys h2
    simp only [encFields]
    by_cases hsk : m.tag.skip = true
    · rw [if_pos hsk, if_pos hsk, hrec]
    · rw [if_neg hsk] at h1
      rw [if_neg hsk, if_neg hsk]
      by_cases hx : m.exported = true
      · rw [if_pos hx] at h1
        rw [recordSize_same m t x y sm (.inr (sameSent_sizeof h1.1))]
        congr 1
        funext sm'
        rw [if_pos hx, if_pos hx, encCore_same t _ x y h1.1, hrec]
        have hfl : encFlags e t (fieldOpt m sm') x = encFlags e t (fieldOpt m sm') y := by
          unfold encFlags
          by_cases ho : m.tag.option = true ∨ m.tag.coption = true
          · rw [h1.2 ho]
          · have a1 : (fieldOpt m sm').optional = false := by
              show m.tag.option = false
              cases hm : m.tag.option
              · rfl
              · exact absurd (.inl hm) ho
            have a2 : (fieldOpt m sm').coptional = false := by
              show m.tag.coption = false
              cases hm : m.tag.coption
              · rfl
              · exact absurd (.inr hm) ho
            simp only [a1, a2, Bool.false_eq_true, false_and, and_false, if_false]
        rw [hfl]
      · rw [if_neg hx] at h1
        rw [recordSize_same m t x y sm (h1.imp id fun h => by rw [h])]
        congr 1
        funext sm'
        rw [if_neg hx, if_neg hx, hrec]
termination_by structural fs => fs
end

theorem encode_same (t : Ty) (x y : Val) (s : Enc) (h : SameSent s.enc t x y) : encode t x s = encode t y s := by
  unfold encode
  rw [M.bind_apply, M.get_apply, M.bind_apply, M.get_apply]
  simp only []
  rw [encCore_same t {} x y h]

/-! ### decoding -/

/-- If `r` succeeds its result satisfies `Q`. -/
def Post {σ α : Type} (r : M σ α) (Q : α → Prop) : Prop := ∀ s a s', r s = (.ok a, s') → Q a

section
variable {σ α β : Type}

theorem Post.trivial (r : M σ α) : Post r fun _ => True := fun _ _ _ _ => True.intro

theorem Post.pure {Q : α → Prop} {a : α} (h : Q a) : Post (pure a : M σ α) Q := by
  intro s b s' hr; simp at hr; rw [← hr.1]; exact h

theorem Post.err {Q : α → Prop} (x : Err) : Post (M.err x : M σ α) Q := by intro s b s' hr; simp at hr
theorem Post.panic {Q : α → Prop} : Post (M.panic : M σ α) Q := by intro s b s' hr; simp at hr

theorem Post.bind {r : M σ α} {f : α → M σ β} {P : α → Prop} {Q : β → Prop} (h1 : Post r P) (h2 : ∀ a, P a → Post (f a) Q) :
    Post (r >>= f) Q := by
  intro s b s' hr
  cases hm : r s with
  | mk res s1 =>
    cases res with
    | err x => rw [M.bind_err hm] at hr; simp at hr
    | panic => rw [M.bind_panic hm] at hr; simp at hr
    | ok a => rw [M.bind_ok hm] at hr; exact h2 a (h1 s a s1 hm) s1 b s' hr

theorem Post.weaken {r : M σ α} {P Q : α → Prop} (h : Post r P) (hq : ∀ a, P a → Q a) : Post r Q :=
  fun s a s' hr => hq a (h s a s' hr)

theorem Post.map {r : M σ α} {f : α → β} {P : α → Prop} {Q : β → Prop} (h : Post r P) (hq : ∀ a, P a → Q (f a)) :
    Post (r >>= fun x => Pure.pure (f x)) Q := h.bind fun a ha => Post.pure (hq a ha)

/-- After any step. -/
theorem Post.after {r : M σ α} {f : α → M σ β} {Q : β → Prop} (h : ∀ a, Post (f a) Q) : Post (r >>= f) Q :=
  (Post.trivial r).bind fun a _ => h a

theorem Post.ite {c : Prop} [Decidable c] {r s : M σ α} {Q : α → Prop} (h1 : c → Post r Q) (h2 : ¬ c → Post s Q) :
    Post (if c then r else s) Q := by
  by_cases h : c
  · rw [if_pos h]; exact h1 h
  · rw [if_neg h]; exact h2 h

theorem Post.repeat {f : M σ α} {Q : α → Prop} (h : Post f Q) (n : Nat) : Post (repeatM f n) fun xs => ∀ x ∈ xs, Q x := by
  induction n with
  | zero => exact Post.pure (by simp)
  | succ n ih =>
    unfold repeatM
    refine h.bind fun a ha => ih.map fun xs hxs x hx => ?_
    rcases List.mem_cons.mp hx with rfl | hx
    · exact ha
    · exact hxs x hx

theorem Post.traverse {f : α → M σ β} {Q : α → β → Prop} (h : ∀ x, Post (f x) (Q x)) : ∀ xs : List α,
    Post (traverseM f xs) (All2 Q xs)
  | [] => Post.pure True.intro
  | x :: xs => by
    unfold traverseM
    exact (h x).bind fun a ha => (Post.traverse h xs).map fun bs hbs => ⟨ha, hbs⟩
end

theorem cleared_zero : (t : Ty) → Cleared t t.zero
  | .ptr t => by simp only [Ty.zero, Cleared, Ty.isZero, Option.isNone_none]
  | .bool | .uint _ _ | .int _ _ | .borshEnum | .f32 | .f64 | .str | .lib _ | .slice _
  | .array _ _ | .map _ _ | .struct _ | .iface | .plainInt | .plainUint | .other => by
    simp only [Cleared]; exact isZero_zero _

theorem cleared_absentVal : (t : Ty) → (v : Val) → Cleared t (absentVal t v)
  | .ptr (.ptr t), v => by
    cases v <;> try exact cleared_zero _
    rename_i p
    cases p with
    | none => exact cleared_zero _
    | some x =>
      simp only [absentVal, Cleared]
      exact cleared_absentVal (.ptr t) x
  | .bool, v | .uint _ _, v | .int _ _, v | .borshEnum, v | .f32, v | .f64, v | .str, v
  | .lib _, v | .slice _, v | .array _ _, v | .map _ _, v | .struct _, v | .iface, v | .plainInt, v
  | .plainUint, v | .other, v => by simp only [absentVal]; exact cleared_zero _
  | .ptr .bool, v | .ptr (.uint _ _), v | .ptr (.int _ _), v | .ptr .borshEnum, v | .ptr .f32, v
  | .ptr .f64, v | .ptr .str, v | .ptr (.lib _), v | .ptr (.slice _), v | .ptr (.array _ _), v
  | .ptr (.map _ _), v | .ptr (.struct _), v | .ptr .iface, v | .ptr .plainInt, v | .ptr .plainUint, v
  | .ptr .other, v => by simp only [absentVal]; exact cleared_zero _
termination_by structural t => t

theorem cleared_absentBase : (t : Ty) → Cleared t (absentBase t)
  | .ptr t => by simp only [absentBase, Cleared]; exact cleared_absentBase t
  | .bool | .uint _ _ | .int _ _ | .borshEnum | .f32 | .f64 | .str
  | .lib _ | .slice _ | .array _ _ | .map _ _ | .struct _ | .iface | .plainInt
  | .plainUint | .other => by simp only [absentBase]; exact cleared_zero _
termination_by structural t => t

theorem decField_untouched {e : Encoding} (t : Ty) (o : Opt) (old : Val) (core : DM Val) (h : Post core (Untouched e t old)) :
    Post (decField e t o old core) fun y => Untouched e t old y ∨ ((o.optional = true ∨ o.coptional = true) ∧ Cleared t y) := by
  have hc : Post core fun y => Untouched e t old y ∨ ((o.optional = true ∨ o.coptional = true) ∧ Cleared t y) :=
    h.weaken fun _ h => .inl h
  unfold decField
  refine Post.after fun _ => Post.ite (fun ho => Post.ite (fun _ => Post.panic) fun _ => ?_) fun _ => Post.ite (fun ho => ?_) fun _ => hc
  · refine Post.after fun b => Post.ite (fun _ => ?_) fun _ => Post.pure (.inr ⟨.inl ho, cleared_absentVal t old⟩)
    refine Post.ite (fun _ => Post.ite (fun _ => Post.panic) fun _ => ?_) fun _ => hc
    exact Post.after fun b => Post.ite (fun _ => hc) fun _ => Post.pure (.inr ⟨.inl ho, cleared_absentBase t⟩)
  · exact Post.ite (fun _ => Post.panic) fun _ => Post.after fun b => Post.ite (fun _ => hc) fun _ =>
      Post.pure (.inr ⟨.inr ho.2, cleared_absentVal t old⟩)

theorem directLib_untouched {e : Encoding} {t : Ty} {l : Lib} {isPtr : Bool} (h : t.directLib = some (l, isPtr)) (old x : Val) :
    Untouched e t old (if isPtr then .ptr (some x) else x) := by
  rcases directLib_cases h with ⟨rfl, rfl⟩ | ⟨rfl, rfl⟩
  · simp [Untouched]
  · cases old <;> simp [Untouched]

mutual
theorem decCore_untouched {e : Encoding} : (t : Ty) → (o : Opt) → (old : Val) → Post (decCore e t o old) (Untouched e t old)
  | .lib l, o, old => by exact (Post.trivial _).weaken fun y _ => by simp [Untouched]
  | .ptr t, o, old => by
    simp only [decCore]
    refine (decCore_untouched t o (old.deref t)).map fun y hy => ?_
    cases old <;> try (simp [Untouched]; done)
    rename_i p
    simp only [Untouched]
    cases p <;> exact hy
  | .slice t, o, old => by
    simp only [decCore]
    have hcont : ∀ l : Int, Post (if e = .borsh ∧ l = 0 then pure old
        else do
          let d ← M.get
          if l > d.remaining then M.err .eof
          else
            match t.uintKind with
            | some w => do
              let xs ← readUints l w
              pure (.seq (some xs))
            | none => do
              let xs ← repeatM (do setCurD .le; decCore e t {} t.zero) l.toNat
              pure (.seq (some xs)) : DM Val) (Untouched e (.slice t) old) := by
      intro l
      refine Post.ite (fun _ => Post.pure ?_) fun _ => Post.after fun d => Post.ite (fun _ => Post.err _) fun _ => ?_
      · cases old <;> simp [Untouched]
      · cases hu : t.uintKind with
        | some w => exact Post.after fun xs => Post.pure (by simp [Untouched, hu])
        | none =>
          refine ((Post.after fun _ => decCore_untouched t {} t.zero).repeat l.toNat).map fun xs hxs => ?_
          simp only [Untouched, Option.getD_some]
          exact .inr (.inr hxs)
    cases o.sizeOf with
    | some s => exact Post.after fun l => hcont l
    | none => exact Post.after fun n => hcont n
  | .array n t, o, old => by
    simp only [decCore]
    cases hu : t.uintKind with
    | some w => exact Post.after fun xs => Post.pure (by cases old <;> simp [Untouched, hu])
    | none =>
      refine (Post.traverse (Q := fun x y => Untouched e t x y) (fun x => Post.after fun _ => decCore_untouched t {} x) _).map fun ys hys => ?_
      cases old <;> try (simp [Untouched]; done)
      simp only [Untouched]
      exact .inr hys
  | .map k t, o, old => by
    simp only [decCore]
    refine Post.after fun l => Post.ite (fun _ => Post.pure (by cases old <;> simp [Untouched])) fun _ => ?_
    have hent : Post (do
        setCurD .le
        let x ← decCore e k {} k.zero
        setCurD .le
        let y ← decCore e t {} t.zero
        pure (x, y) : DM (Val × Val)) fun p => Untouched e k k.zero p.1 ∧ Untouched e t t.zero p.2 :=
      Post.after fun _ => (decCore_untouched k {} k.zero).bind fun x hx => Post.after fun _ =>
        (decCore_untouched t {} t.zero).map fun y hy => ⟨hx, hy⟩
    refine (hent.repeat l).map fun xs hxs => ?_
    simp only [Untouched, Option.getD_some]
    exact .inr (foldl_setEntry_all (P := fun p => Untouched e k k.zero p.1 ∧ Untouched e t t.zero p.2) hxs (by simp))
  | .struct fs, o, old => by
    simp only [decCore, decStruct]
    cases old <;> try (refine (Post.trivial _).weaken fun y _ => ?_; cases y <;> simp [Untouched]; done)
    rename_i xs
    simp only [Val.fields]
    refine Post.ite (fun h => ?_) fun h => ?_
    · refine Post.after fun tag => Post.ite (fun _ => Post.err _) fun _ => ?_
      refine (decNth_untouched fs (tag + 1) xs).map fun ys hys => ?_
      simp only [Untouched, if_pos h]
      cases fs with
      | nil => simp [UntouchedNth] at hys
      | cons m t fs =>
        cases xs with
        | nil => simp [UntouchedNth] at hys
        | cons x xs =>
          cases ys with
          | nil => simp [UntouchedNth] at hys
          | cons y ys =>
            simp only [UntouchedNth] at hys
            simpa only [UntouchedTail, List.tail_cons] using hys.2
    · refine (decFields_untouched fs [] false xs).map fun ys hys => ?_
      simp only [Untouched, if_neg h]
      exact hys
  | .iface, _, old => by exact (Post.trivial _).weaken fun y _ => by simp [Untouched]
  | .bool, _, _ => by exact (Post.trivial _).weaken fun y _ => by simp [Untouched]
  | .uint _ _, _, _ => by exact (Post.trivial _).weaken fun y _ => by simp [Untouched]
  | .int _ _, _, _ => by exact (Post.trivial _).weaken fun y _ => by simp [Untouched]
  | .borshEnum, _, _ => by exact (Post.trivial _).weaken fun y _ => by simp [Untouched]
  | .f32, _, _ => by exact (Post.trivial _).weaken fun y _ => by simp [Untouched]
  | .f64, _, _ => by exact (Post.trivial _).weaken fun y _ => by simp [Untouched]
  | .str, _, _ => by exact (Post.trivial _).weaken fun y _ => by simp [Untouched]
  | .plainInt, _, _ => by exact (Post.trivial _).weaken fun y _ => by simp [Untouched]
  | .plainUint, _, _ => by exact (Post.trivial _).weaken fun y _ => by simp [Untouched]
  | .other, _, _ => by exact (Post.trivial _).weaken fun y _ => by simp [Untouched]
termination_by structural t => t
theorem decFields_untouched {e : Encoding} : (fs : Fields) → (sm : List (Bytes × Int)) → (seen : Bool) → (xs : List Val) →
    Post (decFields e fs sm seen xs) (UntouchedFields e fs xs)
  | .nil, _, _, _ => by exact (Post.trivial _).weaken fun y _ => by simp [UntouchedFields]
  | .cons m t fs, _, _, [] => by simp only [decFields]; exact Post.panic
  | .cons m t fs, sm, seen, x :: xs => by
    have hrec := decFields_untouched (e := e) fs
    simp only [decFields]
    refine Post.ite (fun hsk => ?_) fun hsk => Post.ite (fun _ => Post.panic) fun _ =>
      (show Post (extensionEnds m) fun b => b = true → m.tag.binExt = true from
        Post.ite (fun hb => (Post.trivial _).weaken fun _ _ _ => hb) fun _ => Post.pure (by simp)).bind fun atEnd hat => ?_
    · refine (hrec sm seen xs).map fun ys hys => ?_
      simp only [UntouchedFields]
      exact ⟨by simp [hsk], hys⟩
    refine Post.ite (fun hend => ?_) fun hgo => ?_
    · refine (hrec _ _ xs).map fun ys hys => ?_
      simp only [UntouchedFields]
      refine ⟨?_, hys⟩
      split
      · trivial
      · rename_i hn
        refine .inr (.inl ⟨?_, trivial⟩)
        rw [Bool.or_eq_true] at hend
        rcases hend with h | h
        · exact hat h
        · exact absurd (.inr (by simpa using h)) hn
    have hex : m.exported = true := by
      cases he : m.exported
      · rw [he] at hgo; simp at hgo
      · rfl
    have hcond : ¬ (m.tag.skip = true ∨ m.exported = false) := by simp [hsk, hex]
    cases hl : (if e = .borsh then t.directLib else none) with
    | some p =>
      obtain ⟨l, isPtr⟩ := p
      have hdl : t.directLib = some (l, isPtr) := by
        split at hl
        · exact hl
        · cases hl
      refine Post.after fun y => (hrec _ _ xs).map fun ys hys => ?_
      simp only [UntouchedFields, if_neg hcond]
      exact ⟨.inl (directLib_untouched hdl x y), hys⟩
    | none =>
      refine (decField_untouched t (fieldOpt m sm) x _ (decCore_untouched t (fieldOpt m sm) x)).bind fun y hy => ?_
      refine Post.after fun sm' => (hrec _ _ xs).map fun ys hys => ?_
      simp only [UntouchedFields, if_neg hcond]
      exact ⟨hy.imp id fun h => .inr h, hys⟩
termination_by structural fs => fs
theorem decNth_untouched {e : Encoding} : (fs : Fields) → (i : Nat) → (xs : List Val) →
    Post (decNth e fs i xs) (UntouchedNth e fs i xs)
  | .nil, _, _ => by simp only [decNth]; exact Post.panic
  | .cons m t fs, _, [] => by simp only [decNth]; exact Post.panic
  | .cons m t fs, 0, x :: xs => by
    simp only [decNth]
    exact Post.after fun _ => (decCore_untouched t {} x).map fun y hy => by simpa [UntouchedNth] using hy
  | .cons m t fs, i + 1, x :: xs => by
    simp only [decNth]
    exact (decNth_untouched fs i xs).map fun ys hys => by simpa [UntouchedNth] using hys
termination_by structural fs => fs
end

theorem decode_untouched (t : Ty) (old v : Val) (d d' : Dec) (h : decode t old d = (.ok v, d')) : Untouched d.enc t old v := by
  unfold decode at h
  rw [M.bind_apply, M.get_apply] at h
  simp only [] at h
  split at h
  · simp at h
  · exact Post.after (fun _ => decCore_untouched t {} old) d v d' h

end Verif
