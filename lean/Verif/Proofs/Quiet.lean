import Verif.Proofs.EncodeWire
import Verif.Spec.Calm
/-! `Encode` does not panic on calm values, whatever the writer does. -/
set_option linter.unusedSimpArgs false
namespace Verif
open Spec

/-- No panic; the encoding stays, and so does the fact that a field option is set. -/
def Quiet (e : Encoding) {α : Type} (r : EM α) (P : α → Prop := fun _ => True) : Prop :=
  ∀ s : Enc, s.enc = e → s.cur ≠ none →
    (r s).1 ≠ .panic ∧ (r s).2.enc = e ∧ (r s).2.cur ≠ none ∧ ∀ a, (r s).1 = .ok a → P a

section
variable {e : Encoding}

theorem Quiet.pure {α : Type} {P : α → Prop} (a : α) (h : P a) : Quiet e (pure a) P := by
  intro s he hc
  exact ⟨by simp, he, hc, by rintro b ⟨⟩; exact h⟩

theorem Quiet.err {α : Type} {P : α → Prop} (x : Err) : Quiet e (M.err x : EM α) P := by
  intro s he hc
  exact ⟨by simp [M.err], he, hc, by simp [M.err]⟩

theorem Quiet.bind {α β : Type} {r : EM α} {f : α → EM β} {P : α → Prop} {Q : β → Prop} (h : Quiet e r P)
    (hf : ∀ a, P a → Quiet e (f a) Q) : Quiet e (r >>= f) Q := by
  intro s he hc
  obtain ⟨h1, h2, h3, h4⟩ := h s he hc
  rw [M.bind_apply]
  generalize r s = q at h1 h2 h3 h4
  obtain ⟨res, s'⟩ := q
  cases res with
  | ok a => exact hf a (h4 a rfl) s' h2 h3
  | err x => exact ⟨by simp, h2, h3, by simp⟩
  | panic => exact absurd rfl h1

theorem Quiet.weaken {α : Type} {r : EM α} {P Q : α → Prop} (h : Quiet e r P) (hq : ∀ a, P a → Q a) : Quiet e r Q :=
  fun s he hc => ⟨(h s he hc).1, (h s he hc).2.1, (h s he hc).2.2.1, fun a ha => hq a ((h s he hc).2.2.2 a ha)⟩

theorem Quiet.ite {α : Type} {c : Prop} [Decidable c] {r1 r2 : EM α} {P : α → Prop} (h1 : c → Quiet e r1 P)
    (h2 : ¬ c → Quiet e r2 P) : Quiet e (if c then r1 else r2) P := by
  by_cases h : c
  · rw [if_pos h]; exact h1 h
  · rw [if_neg h]; exact h2 h

theorem Quiet.get {α : Type} {f : Enc → EM α} {P : α → Prop}
    (h : ∀ s : Enc, s.enc = e → s.cur ≠ none → Quiet e (f s) P) : Quiet e (M.get >>= f) P := by
  intro s he hc
  rw [M.bind_apply, M.get_apply]
  exact h s he hc s he hc

theorem Quiet.set (o : Order) : Quiet e (setCurE o) := by
  intro s he hc
  exact ⟨by simp [setCurE, M.modify_apply], by simpa [setCurE, M.modify_apply] using he,
    by simp [setCurE, M.modify_apply], by simp⟩

theorem Quiet.toWriter (b : Bytes) : Quiet e (toWriter b) := by
  intro s he hc
  unfold Verif.toWriter
  split <;> exact ⟨by simp, he, hc, by simp⟩

theorem Quiet.forEach {α : Type} {f : α → EM Unit} (xs : List α) (h : ∀ x ∈ xs, Quiet e (f x)) :
    Quiet e (forEachM f xs) := by
  induction xs with
  | nil => exact Quiet.pure _ trivial
  | cons x xs ih => exact (h x (by simp)).bind fun _ _ => ih fun y hy => h y (by simp [hy])

theorem Quiet.forIndex {α : Type} {f : α → EM Unit} (xs : List α) (n : Nat) (hn : n ≤ xs.length)
    (h : ∀ x ∈ xs, Quiet e (f x)) : Quiet e (forIndexM f n xs) := by
  induction xs generalizing n with
  | nil =>
    obtain rfl : n = 0 := by simpa using hn
    exact Quiet.pure _ trivial
  | cons x xs ih =>
    cases n with
    | zero => exact Quiet.pure _ trivial
    | succ n =>
      exact (h x (by simp)).bind fun _ _ => ih n (by simpa using hn) fun y hy => h y (by simp [hy])

theorem Quiet.raw (b : Bytes) : Quiet e (writeRaw b) := Quiet.ite (fun _ => Quiet.pure _ trivial) fun _ => Quiet.toWriter b

theorem Quiet.uvar (n : Nat) (h : n < 2 ^ 56) : Quiet e (writeUVarInt n) := by
  unfold writeUVarInt
  rw [toUnsigned_of_nonneg (by omega) (by omega), putUvarint8_eq _ (by omega), if_pos (by omega)]
  exact Quiet.bind (P := fun _ => True) (Quiet.pure _ trivial) fun _ _ => Quiet.toWriter _

theorem Quiet.var (z : Int) (h : -2 ^ 55 ≤ z ∧ z < 2 ^ 55) : Quiet e (writeVarInt z) := by
  unfold writeVarInt putVarint8
  rw [putUvarint8_eq _ (zigzag_lt z), if_pos (by unfold zigzag toUnsigned; split <;> omega)]
  exact Quiet.bind (P := fun _ => True) (Quiet.pure _ trivial) fun _ _ => Quiet.toWriter _

theorem Quiet.len (hv : e.valid = true) (n : Nat) (h : lenFits e n) : Quiet e (writeLength n) := by
  unfold writeLength
  refine Quiet.get fun s he _ => ?_
  rw [he]
  cases e with
  | bin => exact Quiet.uvar n (h rfl)
  | borsh => exact Quiet.toWriter _
  | compactU16 => exact Quiet.raw _
  | other => cases hv

theorem Quiet.bytes (hv : e.valid = true) (b : Bytes) (l : Bool) (h : l = true → lenFits e b.length) :
    Quiet e (writeBytes b l) := by
  unfold writeBytes
  exact Quiet.ite (fun hl => (Quiet.len hv _ (h hl)).bind fun _ _ => Quiet.raw b) fun _ => Quiet.raw b

theorem Quiet.seqLen (hv : e.valid = true) (n : Nat) (h : lenFits e n) : Quiet e (writeSeqLen e n) := by
  cases e with
  | bin => exact Quiet.uvar n (h rfl)
  | borsh => exact Quiet.toWriter _
  | compactU16 => exact Quiet.toWriter _
  | other => cases hv

theorem Quiet.float32 (n : Nat) (o : Order) : Quiet e (writeFloat32 n o) :=
  Quiet.get fun _ _ _ => Quiet.ite (fun _ => Quiet.err _) fun _ => Quiet.toWriter _

theorem Quiet.float64 (n : Nat) (o : Order) : Quiet e (writeFloat64 n o) :=
  Quiet.get fun _ _ _ => Quiet.ite (fun _ => Quiet.err _) fun _ => Quiet.toWriter _

theorem Quiet.u128 (lo hi : Nat) (o : Order) : Quiet e (writeUint128 lo hi o) := by
  cases o <;> exact Quiet.toWriter _

theorem Quiet.str (hv : e.valid = true) (s : Bytes) (h : lenFits e s.length) : Quiet e (writeString s) :=
  Quiet.bytes hv s true fun _ => h

theorem Quiet.rust (s : Bytes) : Quiet e (writeRustString s) :=
  (Quiet.toWriter _).bind fun _ _ => Quiet.raw s

theorem Quiet.lib (hv : e.valid = true) (l : Lib) (v : Val) (h : LibCalm e l v) : Quiet e (marshalLib l v) := by
  cases l <;> cases v <;> simp only [LibCalm] at h <;> simp only [marshalLib]
  case safeString => exact Quiet.str hv _ h
  case bool => exact Quiet.toWriter _
  case hexBytes => exact Quiet.bytes hv _ true fun _ => h
  case varint16 => exact Quiet.var _ (by omega)
  case varint32 => exact Quiet.var _ (by omega)
  case varuint16 => exact Quiet.uvar _ (by omega)
  case varuint32 => exact Quiet.uvar _ (by omega)
  case emptyVariant => exact Quiet.pure _ trivial
  case jsonFloat64 =>
    refine Quiet.get fun s _ hc => ?_
    cases hs : s.cur with
    | none => exact absurd hs hc
    | some o => exact Quiet.float64 _ _
  case int64 | uint64 =>
    refine Quiet.get fun s _ hc => ?_
    cases hs : s.cur with
    | none => exact absurd hs hc
    | some o => exact Quiet.toWriter _
  case uint128 | float128 => exact Quiet.get fun s _ _ => Quiet.u128 _ _ _
  case int128 =>
    refine Quiet.get fun s _ _ => ?_
    cases order128 s.cur _ <;> exact Quiet.toWriter _

theorem mapOpt_isUint (w : Width) (xs : List Val) (h : ∀ x ∈ xs, isUint x) : ∃ bs, mapOpt (bulkBytes w) xs = some bs := by
  induction xs with
  | nil => exact ⟨[], rfl⟩
  | cons x xs ih =>
    obtain ⟨bs, hb⟩ := ih fun y hy => h y (by simp [hy])
    have := h x (by simp)
    cases x <;> simp only [isUint] at this
    exact ⟨_, by simp only [mapOpt, bulkBytes, hb]; rfl⟩

theorem Quiet.uints (hv : e.valid = true) (l : Int) (w : Width) (xs : List Val) (h0 : 0 ≤ l) (hl : l ≤ xs.length)
    (h : ∀ x ∈ xs, isUint x) : Quiet e (writeUints l w xs) := by
  unfold writeUints
  rw [if_neg (by omega), if_neg (by omega)]
  obtain ⟨bs, hb⟩ := mapOpt_isUint w (xs.take l.toNat) fun x hx => h x (List.mem_of_mem_take hx)
  rw [hb]
  exact Quiet.bytes hv _ false (by simp)

theorem Quiet.flags (t : Ty) (o : Opt) (v : Val) : Quiet e (encFlags e t o v) fun b =>
    b = true → ¬ (t.isZero v = true ∧ (o.optional = true ∨ (e = .borsh ∧ o.coptional = true))) := by
  have hf : ∀ b, Quiet e (writeFlag e b) := by
    intro b; cases e <;> exact Quiet.toWriter _
  unfold encFlags
  refine Quiet.ite (fun _ => (hf _).bind fun _ _ => Quiet.pure _ (by simp)) fun h1 => ?_
  have hrest : Quiet e (if e = .borsh ∧ o.coptional = true then
      if t.isZero v = true then do writeCOption false; Pure.pure false else do writeCOption true; Pure.pure true
      else Pure.pure true) fun b =>
      b = true → ¬ (t.isZero v = true ∧ (o.optional = true ∨ (e = .borsh ∧ o.coptional = true))) := by
    refine Quiet.ite (fun h2 => Quiet.ite (fun h3 => (Quiet.toWriter _).bind fun _ _ => Quiet.pure _ (by simp)) fun h3 =>
      (Quiet.toWriter _).bind fun _ _ => Quiet.pure _ (by simp [h3])) fun h2 => Quiet.pure _ ?_
    rintro - ⟨hz, ho | hc⟩
    · exact h1 ⟨ho, hz⟩
    · exact h2 hc
  by_cases ho : o.optional = true
  · rw [if_pos ho]
    exact (hf true).bind fun _ _ => hrest
  · rw [if_neg ho]
    exact hrest

theorem counter_sizeof {t : Ty} {v : Val} {n : Int} (h : counter t v = some n) : sizeofVal t.kind v = .ok n := by
  unfold counter at h
  cases hk : t.kind <;> cases v <;> rw [hk] at h <;> simp only [] at h <;> (try contradiction) <;> simp only [sizeofVal]
  case int => cases h; rfl
  case plainInt => cases h; rfl
  all_goals
    rename_i n'
    unfold toSigned
    split at h
    · cases h
      rename_i hlt
      rw [if_pos hlt, if_neg (by omega)]
    · split at h
      · cases h
        rename_i h1 h2
        rw [if_neg h1]
        rw [if_pos (by omega)]
      · cases h

def Scalar (e : Encoding) (k : Kind) (v : Val) : Prop :=
  match k, v with
  | .string, .str s => lenFits e s.length
  | .uint _, .uint _ | .int _, .int _ | .f32, .float _ | .f64, .float _ | .bool, .bool _ => True
  | _, _ => False

theorem Quiet.scalar (hv : e.valid = true) (k : Kind) (o : Order) (v : Val) (r : EM Unit)
    (h : encScalar e k o v = some r) (hs : Scalar e k v) : Quiet e r := by
  cases k <;> cases v <;> simp only [Scalar] at hs
  case string =>
    simp only [encScalar, Option.some.injEq] at h
    subst h
    exact Quiet.ite (fun _ => Quiet.rust _) fun _ => Quiet.str hv _ hs
  case uint w _ => cases w <;> (simp only [encScalar, Option.some.injEq] at h; subst h; exact Quiet.toWriter _)
  case int w _ => cases w <;> (simp only [encScalar, Option.some.injEq] at h; subst h; exact Quiet.toWriter _)
  case f32 => simp only [encScalar, Option.some.injEq] at h; subst h; exact Quiet.float32 _ _
  case f64 => simp only [encScalar, Option.some.injEq] at h; subst h; exact Quiet.float64 _ _
  case bool => simp only [encScalar, Option.some.injEq] at h; subst h; exact Quiet.toWriter _


theorem Quiet.plain (hv : e.valid = true) (k : Kind) (o : Opt) (v : Val) (hs : Scalar e k v) : Quiet e (encPlain e k o v) := by
  unfold encPlain
  cases hr : encScalar e k (if e = .borsh then .le else o.order) v with
  | some r => exact Quiet.scalar hv _ _ _ r hr hs
  | none =>
    exfalso
    cases k <;> cases v <;> simp only [Scalar] at hs <;> simp only [encScalar] at hr <;> (try contradiction) <;>
      (rename_i w _; cases w <;> simp only [encScalar] at hr <;> contradiction)

theorem Quiet.payloadScalar (hv : e.valid = true) (k : Kind) (v : Val) (hs : Scalar e k v) : Quiet e ((encScalar e k .le v).getD (Pure.pure ())) := by
  cases hr : encScalar e k .le v with
  | some r => exact Quiet.scalar hv _ _ _ r hr hs
  | none => exact Quiet.pure _ trivial

theorem Quiet.other (k : Kind) (v : Val) (h : match k with
      | .slice | .array | .map | .ptr | .iface | .plainInt | .plainUint | .other | .struct => True
      | _ => False) : Quiet e ((encScalar e k .le v).getD (Pure.pure ())) := by
  cases k <;> simp only [] at h <;> exact Quiet.pure _ trivial

theorem Quiet.libPayload (hv : e.valid = true) (l : Lib) (v : Val) (h : LibCalm e l v ∨ l = .hexBytes) :
    Quiet e (encLibPayload e l v) := by
  rcases h with h | rfl
  · cases l <;> cases v <;> simp only [LibCalm] at h <;> simp only [encLibPayload, encU128Fields]
    case inl.uint128.u128 | inl.int128.u128 | inl.float128.u128 =>
      exact (Quiet.set _).bind fun _ _ => (Quiet.toWriter _).bind fun _ _ => (Quiet.set _).bind fun _ _ =>
        (Quiet.toWriter _).bind fun _ _ => Quiet.set _
    case inl.emptyVariant.struct => exact Quiet.pure _ trivial
    case inl.hexBytes.bytes => exact Quiet.other .slice _ trivial
    all_goals exact Quiet.payloadScalar hv _ _ (by first | exact h | trivial)
  · simp only [encLibPayload, Lib.kind]
    exact Quiet.other .slice v trivial

theorem Quiet.structOf {fs : Fields} {vs : List Val} {fields : EM Unit} {nth : Nat → EM Unit}
    (h1 : ¬ (e = .borsh ∧ fs.isEnum = true) → Quiet e fields)
    (h2 : e = .borsh ∧ fs.isEnum = true → ∃ n rest, vs = .uint n :: rest ∧ (n + 1 < fs.length → Quiet e (nth (n + 1)))) :
    Quiet e (encStruct e fs vs fields nth) := by
  unfold encStruct
  refine Quiet.ite (fun h => ?_) h1
  obtain ⟨n, rest, rfl, hn⟩ := h2 h
  exact (Quiet.toWriter _).bind fun _ _ => Quiet.ite (fun _ => Quiet.err _) fun hlt => hn (by omega)

theorem Quiet.mapEntries (k : Ty) (m : List (Val × Val)) (h : e = .borsh → 2 ≤ m.length → orderedKey k = true) :
    Quiet e (mapEntries e k m) fun m' => m'.Perm m := by
  unfold Verif.mapEntries sortedEntries
  refine Quiet.ite (fun he => Quiet.ite (fun _ => Quiet.pure _ (List.Perm.refl _)) fun hl => ?_) fun _ =>
    Quiet.pure _ (List.Perm.refl _)
  rw [if_pos ((sortable_eq k).trans (h he (by omega)))]
  exact Quiet.pure _ (sortEntries_perm _ _)

mutual
theorem found_of_nanFree : (k : Ty) → (x : Val) → nanFree k x → k.found x = true
  | .f32, x, h => by
    cases x <;> simp only [Ty.found]
    simp only [nanFree] at h; simp [h]
  | .f64, x, h => by
    cases x <;> simp only [Ty.found]
    simp only [nanFree] at h; simp [h]
  | .lib l, x, h => by
    cases l <;> cases x <;> simp only [Ty.found]
    simp only [nanFree] at h; simp [h]
  | .array n t, x, h => by
    cases x <;> simp only [Ty.found]
    simp only [nanFree] at h
    exact List.all_eq_true.mpr fun y hy => found_of_nanFree t y (h y hy)
  | .struct fs, x, h => by
    cases x <;> simp only [Ty.found]
    simp only [nanFree] at h
    exact founds_of_nanFrees fs _ h
  | .bool, x, _ | .uint _ _, x, _ | .int _ _, x, _ | .borshEnum, x, _ | .str, x, _ | .ptr _, x, _ | .slice _, x, _
  | .map _ _, x, _ | .iface, x, _ | .plainInt, x, _ | .plainUint, x, _ | .other, x, _ => by simp only [Ty.found]
theorem founds_of_nanFrees : (fs : Fields) → (xs : List Val) → nanFrees fs xs → fs.found xs = true
  | .nil, xs, _ => by simp only [Fields.found]
  | .cons m t fs, [], _ => by simp only [Fields.found]
  | .cons m t fs, x :: xs, h => by
    simp only [nanFrees] at h
    simp only [Fields.found, Bool.and_eq_true]
    exact ⟨found_of_nanFree t x h.1, founds_of_nanFrees fs xs h.2⟩
end

mutual
theorem encCore_q (hv : e.valid = true) : (t : Ty) → (o : Opt) → (v : Val) → Calm e t o.sizeOf v → Quiet e (encCore e t o v)
  | .bool, o, v, h => by
    cases v <;> simp only [Calm] at h
    simp only [encCore]; exact Quiet.plain hv _ _ _ trivial
  | .uint w _, o, v, h => by
    cases v <;> simp only [Calm] at h
    simp only [encCore]; exact Quiet.plain hv _ _ _ trivial
  | .int w _, o, v, h => by
    cases v <;> simp only [Calm] at h
    simp only [encCore]; exact Quiet.plain hv _ _ _ trivial
  | .borshEnum, o, v, h => by
    cases v <;> simp only [Calm] at h
    simp only [encCore]; exact Quiet.plain hv _ _ _ trivial
  | .f32, o, v, h => by
    cases v <;> simp only [Calm] at h
    simp only [encCore]; exact Quiet.plain hv _ _ _ trivial
  | .f64, o, v, h => by
    cases v <;> simp only [Calm] at h
    simp only [encCore]; exact Quiet.plain hv _ _ _ trivial
  | .str, o, v, h => by
    cases v <;> simp only [Calm] at h
    simp only [encCore]; exact Quiet.plain hv _ _ _ h
  | .lib l, o, v, h => by
    simp only [Calm] at h
    simp only [encCore]; exact Quiet.lib hv l v h
  | .ptr t, o, v, h => by
    cases v <;> simp only [Calm] at h
    rename_i p
    simp only [encCore]
    cases ht : t.asLib with
    | some l =>
      simp only []
      cases p with
      | some x =>
        obtain rfl : t = .lib l := by cases t <;> simp [Ty.asLib] at ht; rw [ht]
        simp only [Calm] at h
        exact Quiet.lib hv l x h
      | none =>
        simp only [ht] at h
        simp only []
        rw [if_pos h]
        exact Quiet.pure _ trivial
    | none =>
      simp only []
      refine Quiet.ite (fun he => (Quiet.set _).bind fun _ _ => ?_) fun he => (Quiet.set _).bind fun _ _ => ?_
      · cases p with
        | some x =>
          simp only [if_pos he] at h
          exact encCore_q hv t {} x h
        | none =>
          simp only [ht] at h
          exact encCore_q hv t {} t.zero (h he)
      · cases p with
        | some x =>
          simp only [if_neg he] at h
          exact encCore_q hv t o x h
        | none => exact Quiet.pure _ trivial
  | .slice t, o, v, h => by
    cases v <;> simp only [Calm] at h
    rename_i xs
    simp only [encCore]
    have hcont : ∀ l : Int, l ≤ (xs.getD []).length → (t.uintKind.isSome → 0 ≤ l) → Quiet e (match t.uintKind with
        | some w => writeUints l w (xs.getD [])
        | none => forIndexM (fun x => do setCurE .le; encCore e t {} x) l.toNat (xs.getD [])) := by
      intro l hl h0
      cases hk : t.uintKind with
      | some w =>
        rw [hk] at h0
        exact Quiet.uints hv l w _ (h0 rfl) hl fun x hx => by simpa [hk] using h.2 x hx
      | none =>
        exact Quiet.forIndex _ _ (by omega) fun x hx => (Quiet.set _).bind fun _ _ => encCore_q hv t {} x (by
          simpa [hk] using h.2 x hx)
    cases ho : o.sizeOf with
    | some s =>
      rw [ho] at h
      exact Quiet.bind (P := fun l => l = s) (Quiet.pure _ rfl) fun l hl => by
        subst hl; exact hcont _ h.1.1 h.1.2
    | none =>
      rw [ho] at h
      simp only []
      exact (Quiet.seqLen hv _ h.1).bind fun _ _ => hcont _ (by omega) (by omega)
  | .array n t, o, v, h => by
    cases v <;> simp only [Calm] at h
    rename_i xs
    simp only [encCore]
    cases hk : t.uintKind with
    | some w => exact Quiet.uints hv n w xs (by omega) (by omega) fun x hx => by simpa [hk] using h.2 x hx
    | none =>
      exact Quiet.forIndex _ _ (by omega) fun x hx => (Quiet.set _).bind fun _ _ => encCore_q hv t {} x (by
        simpa [hk] using h.2 x hx)
  | .map k t, o, v, h => by
    cases v <;> simp only [Calm] at h
    rename_i m
    simp only [encCore]
    refine (Quiet.mapEntries k _ h.2.1).bind fun m' hp => ?_
    refine (Quiet.seqLen hv _ (by rw [hp.length_eq]; exact h.1)).bind fun _ _ => Quiet.forEach _ fun x hx => ?_
    have hx' := h.2.2 x (hp.mem_iff.mp hx)
    exact (Quiet.set _).bind fun _ _ => (encCore_q hv k {} x.1 hx'.2.1).bind fun _ _ => by
      rw [if_pos (found_of_nanFree k _ hx'.1)]
      exact (Quiet.set _).bind fun _ _ => encCore_q hv t {} x.2 hx'.2.2
  | .struct fs, o, v, h => by
    cases v <;> simp only [Calm] at h
    rename_i vs
    simp only [encCore]
    refine Quiet.structOf (fun he => ?_) fun he => ?_
    · rw [if_neg he] at h
      exact encFields_q hv fs [] vs h
    · rw [if_pos he] at h
      split at h
      · exact ⟨_, _, rfl, fun hn => encNth_q hv fs _ _ (h hn)⟩
      · exact absurd h id
  | .iface, o, v, h => by
    cases v <;> simp only [Calm] at h
    simp only [encCore]; exact Quiet.pure _ trivial
  | .plainInt, o, v, h | .plainUint, o, v, h | .other, o, v, h => by
    simp only [encCore]; exact Quiet.err _
termination_by structural t => t
theorem encFields_q (hv : e.valid = true) : (fs : Fields) → (sm : List (Bytes × Int)) → (vs : List Val) →
    CalmFields e fs sm vs → Quiet e (encFields e fs sm vs)
  | .nil, sm, vs, h => by
    simp only [encFields]; exact Quiet.pure _ trivial
  | .cons m t fs, sm, [], h => by simp only [CalmFields] at h
  | .cons m t fs, sm, v :: vs, h => by
    simp only [CalmFields] at h
    simp only [encFields]
    refine Quiet.ite (fun hk => ?_) fun hk => ?_
    · rw [if_pos hk] at h
      exact encFields_q hv fs sm vs h
    rw [if_neg hk] at h
    have hrest : ∀ sm', (m.exported = true → ¬ absent e m t v → Calm e t (lookupSize m.name sm') v) →
        CalmFields e fs sm' vs → Quiet e (if m.exported = true then do
          setCurE m.tag.order
          let more ← encFlags e t (fieldOpt m sm') v
          if more = true then encCore e t (fieldOpt m sm') v else Pure.pure ()
          encFields e fs sm' vs
        else encFields e fs sm' vs) := by
      intro sm' h1 h2
      refine Quiet.ite (fun hx => (Quiet.set _).bind fun _ _ => (Quiet.flags t _ v).bind fun b hb => ?_) fun _ =>
        encFields_q hv fs sm' vs h2
      have hr := encFields_q hv fs sm' vs h2
      simp only []
      refine Quiet.ite (fun hbt => ?_) fun _ => hr
      exact (encCore_q hv t (fieldOpt m sm') v (h1 hx (hb hbt))).bind fun _ _ => hr
    unfold recordSize
    by_cases h0 : m.tag.sizeOf = []
    · rw [if_pos h0] at h ⊢
      exact Quiet.bind (P := fun x => x = sm) (Quiet.pure _ rfl) fun x hx => by
        subst hx; exact hrest _ h.1 h.2
    · rw [if_neg h0] at h ⊢
      obtain ⟨n, hn, h1, h2⟩ := h
      rw [counter_sizeof hn]
      exact Quiet.bind (P := fun x => x = (m.tag.sizeOf, n) :: sm) (Quiet.pure _ rfl) fun x hx => by
        subst hx; exact hrest _ h1 h2
termination_by structural fs => fs
theorem encNth_q (hv : e.valid = true) : (fs : Fields) → (i : Nat) → (vs : List Val) → CalmNth e fs i vs →
    Quiet e (encNth e fs i vs)
  | .nil, i, vs, h => by simp only [CalmNth] at h
  | .cons m t fs, i, [], h => by cases i <;> simp only [CalmNth] at h
  | .cons m t fs, 0, v :: vs, h => by
    simp only [CalmNth] at h
    simp only [encNth]
    exact encPayload_q hv t v h
  | .cons m t fs, i + 1, v :: vs, h => by
    simp only [CalmNth] at h
    simp only [encNth]
    exact encNth_q hv fs i vs h
termination_by structural fs => fs
theorem encPayload_q (hv : e.valid = true) : (t : Ty) → (v : Val) → CalmPayload e t v → Quiet e (encPayload e t v)
  | .ptr t, v, h => by
    cases v <;> simp only [CalmPayload] at h
    rename_i p
    cases p with
    | none => simp only [encPayload]; exact Quiet.pure _ trivial
    | some x =>
      simp only [encPayload]
      simp only [] at h
      exact encVariant_q hv t x h
  | .struct fs, v, h => by
    cases v <;> simp only [CalmPayload] at h
    simp only [encPayload]
    refine Quiet.structOf (fun he => ?_) fun he => ?_
    · rw [if_neg he] at h
      exact encFields_q hv fs [] _ h
    · rw [if_pos he] at h
      split at h
      · exact ⟨_, _, rfl, fun hn => encNth_q hv fs _ _ (h hn)⟩
      · exact absurd h id
  | .lib l, v, h => by
    simp only [CalmPayload] at h
    simp only [encPayload]
    refine Quiet.libPayload hv l v ?_
    split at h
    · exact Or.inr ‹_›
    · exact Or.inl h
  | .bool, v, h | .uint _ _, v, h | .int _ _, v, h | .borshEnum, v, h | .f32, v, h | .f64, v, h | .str, v, h => by
    cases v <;> simp only [CalmPayload] at h <;> simp only [encPayload] <;>
      exact Quiet.payloadScalar hv _ _ (by first | exact h | trivial)
  | .slice _, v, h | .array _ _, v, h | .map _ _, v, h | .iface, v, h | .plainInt, v, h | .plainUint, v, h
  | .other, v, h => by
    simp only [encPayload]; exact Quiet.other _ _ trivial
termination_by structural t => t
theorem encVariant_q (hv : e.valid = true) : (t : Ty) → (v : Val) → (match t.kind with
      | .slice | .array | .map | .ptr | .iface | .plainInt | .plainUint | .other => True
      | _ => Calm e t none v) → Quiet e (encVariant e t v)
  | .struct fs, v, h => by
    simp only [Ty.kind] at h
    cases v <;> simp only [Calm] at h
    simp only [encVariant]
    refine Quiet.structOf (fun he => ?_) fun he => ?_
    · rw [if_neg he] at h
      exact encFields_q hv fs [] _ h
    · rw [if_pos he] at h
      split at h
      · exact ⟨_, _, rfl, fun hn => encNth_q hv fs _ _ (h hn)⟩
      · exact absurd h id
  | .lib l, v, h => by
    simp only [encVariant]
    refine Quiet.libPayload hv l v ?_
    cases l <;> simp only [Ty.kind, Lib.kind, Calm] at h <;> first | exact Or.inr rfl | exact Or.inl h
  | .bool, v, h | .uint _ _, v, h | .int _ _, v, h | .borshEnum, v, h | .f32, v, h | .f64, v, h | .str, v, h => by
    simp only [Ty.kind] at h
    cases v <;> simp only [Calm] at h <;> simp only [encVariant] <;>
      exact Quiet.payloadScalar hv _ _ (by first | exact h | trivial)
  | .ptr _, v, h | .slice _, v, h | .array _ _, v, h | .map _ _, v, h | .iface, v, h | .plainInt, v, h | .plainUint, v, h
  | .other, v, h => by
    simp only [encVariant]; exact Quiet.other _ _ trivial
termination_by structural t => t
end

end
end Verif
