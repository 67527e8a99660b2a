import Verif.Spec.FixedSize
import Verif.Props.Ints
import Verif.Proofs.DecodeSafe
/-! Decoding a type with a fixed layout takes that many bytes, whatever they are. -/
set_option linter.unusedSimpArgs false
namespace Verif
open Spec Props

/-- The call takes exactly `k` bytes, and succeeds when they are there (up to Borsh NaNs). -/
def Sized {α : Type} (e : Encoding) (nan : Bool) (k : Nat) (m : DM α) : Prop :=
  ∀ d : Dec, d.Ok → d.enc = e → d.cur ≠ none →
    (d.rest.length < k → ∃ er d', m d = (.err er, d')) ∧
    (k ≤ d.rest.length → (∃ v c, c ≠ none ∧ m d = (.ok v, d.to k c)) ∨ (nan = true ∧ e = .borsh ∧ ∃ d', m d = (.err .nan, d')))

section
variable {α β : Type} {e : Encoding} {nan : Bool}

theorem pureThen (a : α) (f : α → DM β) : ((Pure.pure a : DM α) >>= f) = f a := by
  funext d; rfl

theorem Sized.pure (a : α) : Sized e nan 0 (pure a) := by
  intro d _ _ hc
  exact ⟨fun h => absurd h (by omega), fun _ => .inl ⟨a, d.cur, hc, by simp [Dec.to]⟩⟩

theorem Sized.bind {k j : Nat} {r : DM α} {f : α → DM β} (h1 : Sized e nan k r) (h2 : ∀ a, Sized e nan j (f a)) :
    Sized e nan (k + j) (r >>= f) := by
  intro d ho he hc
  obtain ⟨hs, hl⟩ := h1 d ho he hc
  by_cases hk : d.rest.length < k
  · obtain ⟨er, d', hr⟩ := hs hk
    exact ⟨fun _ => ⟨er, d', M.bind_err hr⟩, fun h => absurd h (by omega)⟩
  · rcases hl (by omega) with ⟨v, c, hc1, hr⟩ | ⟨hn, hb, d', hr⟩
    · have hrest : (d.to k c).rest.length = d.rest.length - k := by
        rw [Dec.to_rest, Dec.adv_rest ho, List.length_drop]
      obtain ⟨hs2, hl2⟩ := h2 v (d.to k c) (Dec.to_ok (Dec.adv_ok ho (by omega))) he hc1
      rw [hrest] at hs2 hl2
      rw [M.bind_ok hr]
      refine ⟨fun h => hs2 (by omega), fun h => ?_⟩
      rcases hl2 (by omega) with ⟨w, c2, hc2, hr2⟩ | h2
      · exact .inl ⟨w, c2, hc2, by rw [hr2, Dec.to_to]⟩
      · exact .inr h2
    · rw [M.bind_err hr]
      exact ⟨fun _ => ⟨_, d', rfl⟩, fun _ => .inr ⟨hn, hb, d', rfl⟩⟩

theorem Sized.map {k : Nat} {r : DM α} (h : Sized e nan k r) (f : α → β) : Sized e nan k (r >>= fun x => Pure.pure (f x)) :=
  h.bind (j := 0) fun _ => Sized.pure _

theorem Sized.set {k : Nat} {o : Order} {r : DM α} (h : Sized e nan k r) : Sized e nan k (setCurD o >>= fun _ => r) := by
  intro d ho he _
  simp only [setCurD, M.bind_apply, M.modify_apply]
  exact h { d with cur := some o } ho he (by simp)

theorem Sized.get {k : Nat} {f : Dec → DM α} (h : ∀ d0 : Dec, d0.cur ≠ none → Sized e nan k (f d0)) :
    Sized e nan k (M.get >>= f) := by
  intro d ho he hc
  rw [M.bind_apply, M.get_apply]
  exact h d hc d ho he hc

theorem Sized.repeat {k : Nat} {f : DM α} (h : Sized e nan k f) (n : Nat) : Sized e nan (n * k) (repeatM f n) := by
  induction n with
  | zero => rw [Nat.zero_mul]; exact Sized.pure _
  | succ n ih =>
    rw [show (n + 1) * k = k + n * k by rw [Nat.succ_mul, Nat.add_comm]]
    unfold repeatM
    exact h.bind fun a => ih.map _

theorem Sized.traverse {γ : Type} {k : Nat} {f : γ → DM α} (ys : List γ) (h : ∀ y ∈ ys, Sized e nan k (f y)) :
    Sized e nan (ys.length * k) (traverseM f ys) := by
  induction ys with
  | nil => rw [List.length_nil, Nat.zero_mul]; exact Sized.pure _
  | cons y ys ih =>
    rw [show (y :: ys).length * k = k + ys.length * k by rw [List.length_cons, Nat.succ_mul, Nat.add_comm]]
    unfold traverseM
    exact (h y (by simp)).bind fun a => (ih fun z hz => h z (by simp [hz])).map _

theorem sized_of_clean {k : Nat} {r : DM α} (h : CleanShort r k) : Sized e nan k r := by
  intro d ho _ hc
  obtain ⟨h1, h2⟩ := h d ho
  rw [left_eq ho] at h1 h2
  refine ⟨fun hl => ?_, fun hl => ?_⟩
  · obtain ⟨x, hx⟩ := h1 (by omega); exact ⟨x, d, hx⟩
  · obtain ⟨v, hv⟩ := h2 (by omega); exact .inl ⟨v, d.cur, hc, hv⟩

theorem readFloat32_sized (o : Order) (h : ¬ (e = .borsh ∧ nan = false)) : Sized e nan 4 (readFloat32 o) := by
  intro d ho he hc
  obtain ⟨h1, h2, -⟩ := C03_short_float o d ho
  rw [left_eq ho] at h1 h2
  refine ⟨fun hl => ?_, fun hl => ?_⟩
  · obtain ⟨x, hx⟩ := h1 (by omega); exact ⟨x, d, hx⟩
  · rcases h2 (by omega) with ⟨v, hv⟩ | ⟨hb, hv⟩
    · exact .inl ⟨v, d.cur, hc, hv⟩
    · rw [he] at hb
      exact .inr ⟨by simpa [hb] using h, hb, _, hv⟩

theorem readFloat64_sized (o : Order) (h : ¬ (e = .borsh ∧ nan = false)) : Sized e nan 8 (readFloat64 o) := by
  intro d ho he hc
  obtain ⟨-, -, h1, h2⟩ := C03_short_float o d ho
  rw [left_eq ho] at h1 h2
  refine ⟨fun hl => ?_, fun hl => ?_⟩
  · obtain ⟨x, hx⟩ := h1 (by omega); exact ⟨x, d, hx⟩
  · rcases h2 (by omega) with ⟨v, hv⟩ | ⟨hb, hv⟩
    · exact .inl ⟨v, d.cur, hc, hv⟩
    · rw [he] at hb
      exact .inr ⟨by simpa [hb] using h, hb, _, hv⟩
end

theorem unmarshalLib_sized {e : Encoding} {nan : Bool} {k : Nat} (l : Lib) (old : Val) (h : libSize e nan l = some k) :
    Sized e nan k (unmarshalLib l old) := by
  have c := C03_short
  cases l <;> simp only [libSize, Option.some.injEq, reduceCtorEq] at h <;> (try subst h) <;> simp only [unmarshalLib]
  case bool => exact (sized_of_clean (c .le).2.1).map _
  case jsonFloat64 =>
    split at h
    · cases h
    · cases h
      rename_i hn
      refine Sized.get fun d0 hc => ?_
      cases h0 : d0.cur with
      | none => exact absurd h0 hc
      | some o => exact (readFloat64_sized o hn).map _
  case int64 =>
    refine Sized.get fun d0 hc => ?_
    cases h0 : d0.cur with
    | none => exact absurd h0 hc
    | some o => exact (sized_of_clean (c o).2.2.2.2.2.2.2.2.2.1).map _
  case uint64 =>
    refine Sized.get fun d0 hc => ?_
    cases h0 : d0.cur with
    | none => exact absurd h0 hc
    | some o => exact (sized_of_clean (c o).2.2.2.2.2.2.2.2.1).map _
  case uint128 => exact Sized.get fun d0 hc => (sized_of_clean (c _).2.2.2.2.2.2.2.2.2.2.1).map _
  case int128 => exact Sized.get fun d0 hc => (sized_of_clean (c _).2.2.2.2.2.2.2.2.2.2.2.1).map _
  case float128 => exact Sized.get fun d0 hc => (sized_of_clean (c _).2.2.2.2.2.2.2.2.2.2.2.2).map _
  case emptyVariant => exact Sized.pure _

theorem readNBytes_sized {e : Encoding} {nan : Bool} (n : Nat) (h : n < 2 ^ 31) : Sized e nan n (readNBytes (n : Int)) := by
  intro d ho _ hc
  rw [readNBytes_eq ho]
  by_cases h0 : n = 0
  · subst h0
    exact ⟨fun h => absurd h (by omega), fun _ => .inl ⟨[], d.cur, hc, by simp [Dec.to]⟩⟩
  · rw [if_neg (by omega), if_neg (by omega)]
    refine ⟨fun hl => ?_, fun hl => ?_⟩
    · rw [if_pos (by omega)]; exact ⟨_, _, rfl⟩
    · rw [if_neg (by omega)]; exact .inl ⟨_, d.cur, hc, rfl⟩

theorem readUints_sized {e : Encoding} {nan : Bool} (n : Nat) (w : Width) (h : n * w.bytes < 2 ^ 31) :
    Sized e nan (n * w.bytes) (readUints (n : Int) w) := by
  have c := C03_short .le
  intro d ho he hc
  have hrem := d.rest_length ho
  unfold readUints
  rw [M.bind_apply, M.get_apply]
  simp only []
  by_cases hs : d.rest.length < n * w.bytes
  · rw [if_pos (by have : ((n * w.bytes : Nat) : Int) = (n : Int) * w.bytes := by push_cast; rfl
                   omega)]
    exact ⟨fun _ => ⟨_, _, rfl⟩, fun h => absurd h (by omega)⟩
  · rw [if_neg (by have : ((n * w.bytes : Nat) : Int) = (n : Int) * w.bytes := by push_cast; rfl
                   omega)]
    have key : Sized e nan (n * w.bytes) (match w with
        | .w8 => do
          let buf ← readNBytes (n : Int)
          pure (buf.map fun b => Val.uint b.toNat)
        | w =>
          if (n : Int) < 0 then M.panic
          else do
            let ns ← repeatM (readUintW w .le) (n : Int).toNat
            pure (ns.map .uint)) := by
      have hn : ¬ (n : Int) < 0 := by omega
      have hword : ∀ w : Width, Sized e nan w.bytes (readUintW w .le) := by
        intro w
        cases w
        · exact sized_of_clean c.2.2.1
        · exact sized_of_clean c.2.2.2.2.1
        · exact sized_of_clean c.2.2.2.2.2.2.1
        · exact sized_of_clean c.2.2.2.2.2.2.2.2.1
      cases w
      · rw [show n * Width.w8.bytes = n from Nat.mul_one n] at h ⊢
        exact (readNBytes_sized n h).map _
      all_goals
        simp only [if_neg hn, Int.toNat_natCast]
        exact ((hword _).repeat n).map _
    exact key d ho he hc

theorem decPlain_sized {e : Encoding} {nan : Bool} (o : Opt) :
    Sized e nan 1 (decPlain e .bool o) ∧ (∀ w : Width, Sized e nan w.bytes (decPlain e (.uint w) o)) ∧
    (∀ w : Width, Sized e nan w.bytes (decPlain e (.int w) o)) ∧
    (¬ (e = .borsh ∧ nan = false) → Sized e nan 4 (decPlain e .f32 o) ∧ Sized e nan 8 (decPlain e .f64 o)) := by
  unfold decPlain
  generalize (if e = .borsh then Order.le else o.order) = o'
  have c := C03_short o'
  refine ⟨(sized_of_clean c.2.1).map _, fun w => ?_, fun w => ?_, fun h => ⟨(readFloat32_sized _ h).map _, (readFloat64_sized _ h).map _⟩⟩
  · cases w
    · exact (sized_of_clean c.1).map _
    · exact (sized_of_clean c.2.2.2.2.1).map _
    · exact (sized_of_clean c.2.2.2.2.2.2.1).map _
    · exact (sized_of_clean c.2.2.2.2.2.2.2.2.1).map _
  · cases w
    · exact (sized_of_clean c.2.2.2.1).map _
    · exact (sized_of_clean c.2.2.2.2.2.1).map _
    · exact (sized_of_clean c.2.2.2.2.2.2.2.1).map _
    · exact (sized_of_clean c.2.2.2.2.2.2.2.2.2.1).map _

mutual
theorem decCore_sized {e : Encoding} {nan : Bool} {N : Nat} : (t : Ty) → (o : Opt) → (old : Val) → (k : Nat) →
    fixedSize e nan t = some k → Shaped N t old → Sized e nan k (decCore e t o old)
  | .bool, o, old, k, h, _ => by
    simp only [fixedSize, Option.some.injEq] at h; subst h
    simp only [decCore]; exact (decPlain_sized o).1
  | .uint w _, o, old, k, h, _ => by
    simp only [fixedSize, Option.some.injEq] at h; subst h
    simp only [decCore]; exact (decPlain_sized o).2.1 w
  | .int w _, o, old, k, h, _ => by
    simp only [fixedSize, Option.some.injEq] at h; subst h
    simp only [decCore]; exact (decPlain_sized o).2.2.1 w
  | .borshEnum, o, old, k, h, _ => by
    simp only [fixedSize, Option.some.injEq] at h; subst h
    simp only [decCore]; exact (decPlain_sized o).2.1 .w8
  | .f32, o, old, k, h, _ => by
    simp only [fixedSize] at h
    split at h
    · cases h
    · cases h; simp only [decCore]; exact ((decPlain_sized o).2.2.2 (by assumption)).1
  | .f64, o, old, k, h, _ => by
    simp only [fixedSize] at h
    split at h
    · cases h
    · cases h; simp only [decCore]; exact ((decPlain_sized o).2.2.2 (by assumption)).2
  | .lib l, o, old, k, h, _ => by
    simp only [fixedSize] at h
    simp only [decCore]; exact unmarshalLib_sized l old h
  | .ptr t, o, old, k, h, hs => by
    simp only [fixedSize] at h
    simp only [decCore]
    refine (decCore_sized (N := N) t o (old.deref t) k h ?_).map _
    cases old with
    | ptr p =>
      cases p with
      | none => exact zero_shaped N t
      | some x => simpa [Shaped, Val.deref] using hs
    | _ => simp [Shaped] at hs
  | .array n t, o, old, k, h, hs => by
    simp only [fixedSize] at h
    simp only [decCore]
    cases hu : t.uintKind with
    | some w =>
      have hk : t.kind = .uint w := by
        unfold Ty.uintKind at hu; split at hu
        · rename_i hk; cases hu; exact hk
        · cases hu
      simp only [hk] at h
      split at h
      · rename_i hlt
        cases h
        exact (readUints_sized n w hlt).map _
      · cases h
    | none =>
      have h' : (fixedSize e nan t).map (n * ·) = some k := by
        unfold Ty.uintKind at hu
        split at h
        · rename_i hk; rw [hk] at hu; cases hu
        · exact h
      obtain ⟨a, ha, rfl⟩ := Option.map_eq_some_iff.1 h'
      cases old with
      | arr ys =>
        simp only [Shaped] at hs
        simp only [Val.elems]
        have := Sized.traverse (e := e) (nan := nan) (k := a) (f := fun x => do setCurD .le; decCore e t {} x) ys
          fun y hy => (decCore_sized (N := N) t {} y a ha (hs.2 y hy)).set
        rw [hs.1] at this
        exact this.map _
      | _ => simp [Shaped] at hs
  | .struct fs, o, old, k, h, hs => by
    simp only [fixedSize] at h
    split at h
    · cases h
    · rename_i he
      cases old with
      | struct vs =>
        simp only [Shaped] at hs
        simp only [decCore, decStruct, if_neg he, Val.fields]
        exact (decFields_sized (N := N) fs [] vs k h hs).map _
      | _ => simp [Shaped] at hs
  | .str, _, _, _, h, _ | .slice _, _, _, _, h, _ | .map _ _, _, _, _, h, _ | .iface, _, _, _, h, _
  | .plainInt, _, _, _, h, _ | .plainUint, _, _, _, h, _ | .other, _, _, _, h, _ => by simp [fixedSize] at h
termination_by structural t => t
theorem decFields_sized {e : Encoding} {nan : Bool} {N : Nat} : (fs : Fields) → (sm : List (Bytes × Int)) → (vs : List Val) →
    (k : Nat) → fixedFieldsSize e nan fs = some k → ShapedFields N fs vs → Sized e nan k (decFields e fs sm false vs)
  | .nil, sm, vs, k, h, _ => by
    simp only [fixedFieldsSize, Option.some.injEq] at h; subst h
    simp only [decFields]; exact Sized.pure _
  | .cons m t fs, sm, [], k, h, hs => by simp [ShapedFields] at hs
  | .cons m t fs, sm, v :: vs, k, h, hs => by
    simp only [ShapedFields] at hs
    simp only [fixedFieldsSize] at h
    simp only [decFields]
    by_cases hsk : m.tag.skip = true
    · rw [if_pos hsk] at h ⊢
      exact (decFields_sized (N := N) fs sm vs k h hs.2).map _
    · rw [if_neg hsk] at h ⊢
      split at h
      · cases h
      · rename_i hplain
        simp only [not_or, Bool.not_eq_true, ne_eq, Decidable.not_not] at hplain
        obtain ⟨hopt, hcopt, hext, hsz⟩ := hplain
        rw [if_neg (by simp)]
        have hend : extensionEnds m = pure false := by unfold extensionEnds; rw [hext]; rfl
        rw [hend]
        rw [pureThen]
        simp only [Bool.false_or, hext, Bool.or_false]
        by_cases hexp : m.exported = true
        · rw [if_neg (by simp [hexp])] at h ⊢
          obtain ⟨a, ha, h2⟩ := Option.bind_eq_some_iff.1 h
          obtain ⟨b, hb, rfl⟩ := Option.map_eq_some_iff.1 h2
          cases hd : (if e = .borsh then t.directLib else none) with
          | some p =>
            obtain ⟨l, isPtr⟩ := p
            have hl : libSize e nan l = some a := by
              split at hd
              · rcases directLib_cases hd with ⟨rfl, rfl⟩ | ⟨rfl, rfl⟩ <;> simpa [fixedSize] using ha
              · cases hd
            exact (unmarshalLib_sized l l.zero hl).bind fun x => (decFields_sized (N := N) fs sm vs b hb hs.2).map _
          | none =>
            have hf : decField e t (fieldOpt m sm) v (decCore e t (fieldOpt m sm) v) =
                (setCurD m.tag.order >>= fun _ => decCore e t (fieldOpt m sm) v) := by
              unfold decField
              simp only [fieldOpt, hopt, hcopt]
              simp
            rw [hf]
            refine ((decCore_sized (N := N) t (fieldOpt m sm) v a ha hs.1).set).bind fun x => ?_
            have hrec : recordSize (σ := Dec) m t x sm = pure sm := by unfold recordSize; rw [if_pos hsz]
            rw [hrec, pureThen]
            exact (decFields_sized (N := N) fs sm vs b hb hs.2).map _
        · rw [if_pos (by simp [hexp])] at h ⊢
          exact (decFields_sized (N := N) fs sm vs k h hs.2).map _
termination_by structural fs => fs
end

end Verif
