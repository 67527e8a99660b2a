import Verif.Proofs.DecodeSafe
/-!
A decode that succeeds is not changed by bytes that come after the ones it read.
-/
set_option linter.unusedSimpArgs false
namespace Verif
open Spec

/-- If `r` succeeds on `d1`, it does the same on any decoder with the same bytes ahead plus some more; if it succeeds
with more bytes it succeeds or returns an error with fewer. -/
def Stab {α : Type} (e : Encoding) (r : DM α) : Prop :=
  ∀ ext d1 d2, Ext ext d1 d2 → d1.enc = e →
    (∀ a d1', r d1 = (.ok a, d1') →
      ∃ d2', r d2 = (.ok a, d2') ∧ Ext ext d1' d2' ∧ d2'.pos - d2.pos = d1'.pos - d1.pos ∧ d1'.enc = e) ∧
    (∀ a d2', r d2 = (.ok a, d2') → (r d1).1 ≠ .panic)

section
variable {α β : Type} {e : Encoding}

theorem Stab.prim (hv : e.valid = true) {r : DM α} (hp : Prim r) (hs : Stable r) : Stab e r := by
  intro ext d1 d2 h he
  obtain ⟨res, k, hk, hnp, -⟩ := hp d1 h.ok1 (by rw [he]; exact hv)
  constructor
  · intro a d1' hr
    obtain ⟨d2', h1, h2, h3⟩ := hs ext d1 d2 h (by rw [he]; exact hv) a d1' hr
    refine ⟨d2', h1, h2, h3, ?_⟩
    rw [hk] at hr
    simp only [Prod.mk.injEq] at hr
    rw [← hr.2]; exact he
  · intro _ _ _
    rw [hk]; exact hnp

theorem Stab.pure (a : α) : Stab e (pure a) := by
  intro ext d1 d2 h he
  refine ⟨?_, by simp⟩
  intro b d1' hr
  simp at hr; obtain ⟨rfl, rfl⟩ := hr
  exact ⟨d2, by simp, h, by omega, he⟩

theorem Stab.err (x : Err) : Stab e (M.err x : DM α) := by
  intro ext d1 d2 h he; simp

theorem Stab.panic : Stab e (M.panic : DM α) := by
  intro ext d1 d2 h he; simp

theorem Stab.lift (r : Res α) : Stab e (M.lift r : DM α) := by
  intro ext d1 d2 h he
  refine ⟨?_, ?_⟩
  · intro b d1' hr
    simp at hr; obtain ⟨rfl, rfl⟩ := hr
    exact ⟨d2, by simp, h, by omega, he⟩
  · intro a d2' hr
    simp at hr
    simp [hr.1]

theorem Stab.bind {r : DM α} {f : α → DM β} (h1 : Stab e r) (h2 : ∀ a, Stab e (f a)) : Stab e (r >>= f) := by
  intro ext d1 d2 h he
  cases hm : r d1 with
  | mk res d1' =>
    cases res with
    | err x =>
      refine ⟨fun b d1'' hr => ?_, fun b d2'' hr => ?_⟩
      · rw [M.bind_err hm] at hr; simp at hr
      · rw [M.bind_err hm]; simp
    | panic =>
      refine ⟨fun b d1'' hr => ?_, fun b d2'' hr => ?_⟩
      · rw [M.bind_panic hm] at hr; simp at hr
      · cases hm2 : r d2 with
        | mk res2 d2' =>
          cases res2 with
          | err x => rw [M.bind_err hm2] at hr; simp at hr
          | panic => rw [M.bind_panic hm2] at hr; simp at hr
          | ok a => exact absurd (by rw [hm]) ((h1 ext d1 d2 h he).2 a d2' hm2)
    | ok a =>
      obtain ⟨d2', hr2, hx2, hp2, he2⟩ := (h1 ext d1 d2 h he).1 a d1' hm
      rw [M.bind_ok hm, M.bind_ok hr2]
      obtain ⟨g1, g2⟩ := h2 a ext d1' d2' hx2 he2
      refine ⟨fun b d1'' hr => ?_, g2⟩
      obtain ⟨d2'', hr3, hx3, hp3, he3⟩ := g1 b d1'' hr
      exact ⟨d2'', hr3, hx3, by omega, he3⟩

theorem Stab.ite {c : Prop} [Decidable c] {r s : DM α} (h1 : c → Stab e r) (h2 : ¬ c → Stab e s) :
    Stab e (if c then r else s) := by
  by_cases h : c
  · rw [if_pos h]; exact h1 h
  · rw [if_neg h]; exact h2 h

theorem Stab.set {o : Order} {r : DM α} (h : Stab e r) : Stab e (setCurD o >>= fun _ => r) := by
  refine Stab.bind ?_ fun _ => h
  intro ext d1 d2 h he
  refine ⟨?_, by simp [setCurD]⟩
  intro b d1' hr
  simp only [setCurD, M.modify_apply, Prod.mk.injEq, Res.ok.injEq] at hr
  obtain ⟨-, rfl⟩ := hr
  exact ⟨{ d2 with cur := some o }, rfl, ⟨h.ok1, h.ok2, h.rest, h.enc, rfl⟩, by simp, he⟩

/-- A step that looks at the state only through `cur`. -/
theorem Stab.cur {f : Dec → DM α} {g : Option Order → DM α} (hf : ∀ d, f d = g d.cur) (h : ∀ c, Stab e (g c)) :
    Stab e (M.get >>= f) := by
  intro ext d1 d2 hx he
  rw [M.bind_apply, M.get_apply, M.bind_apply, M.get_apply]
  simp only [hf]
  rw [hx.cur]
  exact h d1.cur ext d1 d2 hx he

/-- The length check: what passes with fewer bytes passes with more. -/
theorem Stab.enough {n : Int} {r : DM α} (h : Stab e r) :
    Stab e (M.get >>= fun d : Dec => if n > d.remaining then M.err .eof else r) := by
  intro ext d1 d2 hx he
  rw [M.bind_apply, M.get_apply, M.bind_apply, M.get_apply]
  simp only []
  have r1 := d1.rest_length hx.ok1
  have r2 := d2.rest_length hx.ok2
  rw [hx.rest, List.length_append] at r2
  by_cases hn : n > d1.remaining
  · rw [if_pos hn]; simp
  · rw [if_neg hn, if_neg (by omega)]
    exact h ext d1 d2 hx he

theorem Stab.repeat {f : DM α} (h : Stab e f) (n : Nat) : Stab e (repeatM f n) := by
  induction n with
  | zero => exact Stab.pure _
  | succ n ih => unfold repeatM; exact h.bind fun _ => ih.bind fun _ => Stab.pure _

theorem Stab.traverse {γ : Type} {f : γ → DM α} (ys : List γ) (h : ∀ y, Stab e (f y)) : Stab e (traverseM f ys) := by
  induction ys with
  | nil => exact Stab.pure _
  | cons y ys ih => unfold traverseM; exact (h y).bind fun _ => ih.bind fun _ => Stab.pure _
end

section
variable {e : Encoding}

theorem unmarshalLib_stab (hv : e.valid = true) (l : Lib) (old : Val) : Stab e (unmarshalLib l old) := by
  cases l <;> simp only [unmarshalLib]
  case safeString => exact (Stab.prim hv safeReadUTF8String_prim safeReadUTF8String_stable).bind fun _ => Stab.pure _
  case bool => exact (Stab.prim hv readBool_prim readBool_stable).bind fun _ => Stab.pure _
  case hexBytes => exact (Stab.prim hv readByteSlice_prim readByteSlice_stable).bind fun _ => Stab.pure _
  case varint16 => exact (Stab.prim hv readVarint16_prim readVarint16_stable).bind fun _ => Stab.pure _
  case varuint16 => exact (Stab.prim hv readUvarint16_prim readUvarint16_stable).bind fun _ => Stab.pure _
  case varuint32 => exact (Stab.prim hv readUvarint64_prim readUvarint64_stable).bind fun _ => Stab.pure _
  case varint32 => exact (Stab.prim hv readVarint32_prim readVarint32_stable).bind fun _ => Stab.pure _
  case jsonFloat64 =>
    refine Stab.cur (g := fun c => match c with
      | none => M.panic
      | some o => do let n ← readFloat64 o; Pure.pure (.float n)) (fun _ => rfl) fun c => ?_
    cases c with
    | none => exact Stab.panic
    | some o => exact (Stab.prim hv (readFloat64_prim o) (readFloat64_stable o)).bind fun _ => Stab.pure _
  case int64 =>
    refine Stab.cur (g := fun c => match c with
      | none => M.panic
      | some o => do let n ← readInt64 o; Pure.pure (.int n)) (fun _ => rfl) fun c => ?_
    cases c with
    | none => exact Stab.panic
    | some o => exact (Stab.prim hv (readInt64_prim o) (readInt64_stable o)).bind fun _ => Stab.pure _
  case uint64 =>
    refine Stab.cur (g := fun c => match c with
      | none => M.panic
      | some o => do let n ← readUint64 o; Pure.pure (.uint n)) (fun _ => rfl) fun c => ?_
    cases c with
    | none => exact Stab.panic
    | some o => exact (Stab.prim hv (readUint64_prim o) (readUint64_stable o)).bind fun _ => Stab.pure _
  case uint128 =>
    exact Stab.cur (g := fun c => (readUint128 (order128 c old.endianness) >>= fun r => Pure.pure (Val.u128 r.1 r.2 none)))
      (fun _ => rfl) fun c => (Stab.prim hv (readUint128_prim _) (readUint128_stable _)).bind fun _ => Stab.pure _
  case int128 =>
    exact Stab.cur (g := fun c => (readUint128 (order128 c old.endianness) >>= fun r => Pure.pure (Val.u128 r.1 r.2 none)))
      (fun _ => rfl) fun c => (Stab.prim hv (readUint128_prim _) (readUint128_stable _)).bind fun _ => Stab.pure _
  case float128 =>
    exact Stab.cur (g := fun c => (readUint128 (order128 c old.endianness) >>= fun r => Pure.pure (Val.u128 r.1 r.2 none)))
      (fun _ => rfl) fun c => (Stab.prim hv (readUint128_prim _) (readUint128_stable _)).bind fun _ => Stab.pure _
  case emptyVariant => exact Stab.pure _

theorem readUintW_stab (hv : e.valid = true) (w : Width) (o : Order) : Stab e (readUintW w o) := by
  cases w
  · exact Stab.prim hv readUint8_prim readUint8_stable
  · exact Stab.prim hv (readUint16_prim _) (readUint16_stable _)
  · exact Stab.prim hv (readUint32_prim _) (readUint32_stable _)
  · exact Stab.prim hv (readUint64_prim _) (readUint64_stable _)

theorem readUints_stab (hv : e.valid = true) (l : Int) (w : Width) : Stab e (readUints l w) := by
  unfold readUints
  refine Stab.enough ?_
  have hword : Stab e (if l < 0 then M.panic else do
        let ns ← repeatM (readUintW w .le) l.toNat
        Pure.pure (ns.map Val.uint)) :=
    Stab.ite (fun _ => Stab.panic) fun _ => ((readUintW_stab hv w .le).repeat _).bind fun _ => Stab.pure _
  cases w
  · exact (Stab.prim hv (readNBytes_prim l) (readNBytes_stable l)).bind fun _ => Stab.pure _
  · exact hword
  · exact hword
  · exact hword

theorem readSeqLen_stab (hv : e.valid = true) : Stab e (readSeqLen e) := by
  cases e
  · exact Stab.prim hv readLength_prim readLength_stable
  · exact Stab.prim hv readCompactU16_prim readCompactU16_stable
  · exact Stab.prim hv (readUint32_prim _) (readUint32_stable _)
  · cases hv

theorem readFlag_stab (hv : e.valid = true) : Stab e (readFlag e) := by
  cases e
  · exact (Stab.prim hv (readUint32_prim _) (readUint32_stable _)).bind fun _ => Stab.pure _
  · exact (Stab.prim hv readByte_prim readByte_stable).bind fun _ => Stab.pure _
  · exact Stab.prim hv readOption_prim readOption_stable
  · cases hv

theorem decPlain_stab (hv : e.valid = true) (k : Kind) (o : Opt) : Stab e (decPlain e k o) := by
  unfold decPlain
  cases k <;> simp only [decScalar] <;> try exact Stab.panic
  · exact (Stab.prim hv readBool_prim readBool_stable).bind fun _ => Stab.pure _
  · rename_i w
    cases w <;> simp only [decScalar]
    · exact (Stab.prim hv readByte_prim readByte_stable).bind fun _ => Stab.pure _
    · exact (Stab.prim hv (readUint16_prim _) (readUint16_stable _)).bind fun _ => Stab.pure _
    · exact (Stab.prim hv (readUint32_prim _) (readUint32_stable _)).bind fun _ => Stab.pure _
    · exact (Stab.prim hv (readUint64_prim _) (readUint64_stable _)).bind fun _ => Stab.pure _
  · rename_i w
    cases w <;> simp only [decScalar]
    · exact (Stab.prim hv readInt8_prim readInt8_stable).bind fun _ => Stab.pure _
    · exact (Stab.prim hv (readInt16_prim _) (readInt16_stable _)).bind fun _ => Stab.pure _
    · exact (Stab.prim hv (readInt32_prim _) (readInt32_stable _)).bind fun _ => Stab.pure _
    · exact (Stab.prim hv (readInt64_prim _) (readInt64_stable _)).bind fun _ => Stab.pure _
  · exact (Stab.prim hv (readFloat32_prim _) (readFloat32_stable _)).bind fun _ => Stab.pure _
  · exact (Stab.prim hv (readFloat64_prim _) (readFloat64_stable _)).bind fun _ => Stab.pure _
  · exact Stab.bind (Stab.ite (fun _ => Stab.prim hv readRustString_prim readRustString_stable)
      fun _ => Stab.prim hv readString_prim readString_stable) fun _ => Stab.pure _

theorem decField_stab (hv : e.valid = true) (t : Ty) (o : Opt) (old : Val) (core : DM Val) (h : Stab e core) :
    Stab e (decField e t o old core) := by
  have hco := Stab.prim hv readCOption_prim readCOption_stable
  unfold decField
  refine Stab.set ?_
  refine Stab.ite (fun _ => Stab.ite (fun _ => Stab.panic) fun _ => ?_) fun _ => Stab.ite (fun _ => ?_) fun _ => h
  · refine (readFlag_stab hv).bind fun b => Stab.ite (fun _ => ?_) fun _ => Stab.pure _
    refine Stab.ite (fun _ => Stab.ite (fun _ => Stab.panic) fun _ => ?_) fun _ => h
    exact hco.bind fun b => Stab.ite (fun _ => h) fun _ => Stab.pure _
  · exact Stab.ite (fun _ => Stab.panic) fun _ => hco.bind fun b => Stab.ite (fun _ => h) fun _ => Stab.pure _

theorem recordSize_stab (m : FieldMeta) (t : Ty) (x : Val) (sm : List (Bytes × Int)) : Stab e (recordSize m t x sm) := by
  unfold recordSize
  exact Stab.ite (fun _ => Stab.pure _) fun _ => (Stab.lift _).bind fun _ => Stab.pure _

mutual
theorem decCore_stab (hv : e.valid = true) : (t : Ty) → noExtension t = true → (o : Opt) → (old : Val) →
    Stab e (decCore e t o old)
  | .lib l, _, o, old => by simp only [decCore]; exact unmarshalLib_stab hv l old
  | .ptr t, h, o, old => by
    simp only [decCore]; exact (decCore_stab hv t (by simpa [noExtension] using h) o _).bind fun _ => Stab.pure _
  | .slice t, h, o, old => by
    simp only [decCore]
    have ht := decCore_stab hv t (by simpa [noExtension] using h) {} t.zero
    have hcont : ∀ l : Int, Stab e (if e = .borsh ∧ l = 0 then Pure.pure old
        else do
          let d ← M.get
          if l > d.remaining then M.err .eof
          else
            match t.uintKind with
            | some w => do
              let xs ← readUints l w
              Pure.pure (.seq (some xs))
            | none => do
              let xs ← repeatM (do setCurD .le; decCore e t {} t.zero) l.toNat
              Pure.pure (.seq (some xs))) := by
      intro l
      refine Stab.ite (fun _ => Stab.pure _) fun _ => Stab.enough ?_
      cases t.uintKind with
      | some w => exact (readUints_stab hv l w).bind fun _ => Stab.pure _
      | none => exact (ht.set.repeat _).bind fun _ => Stab.pure _
    cases o.sizeOf with
    | some s => exact (Stab.pure s).bind hcont
    | none => exact (readSeqLen_stab hv).bind fun n => hcont n
  | .array n t, h, o, old => by
    simp only [decCore]
    have ht := decCore_stab hv t (by simpa [noExtension] using h)
    cases t.uintKind with
    | some w => exact (readUints_stab hv n w).bind fun _ => Stab.pure _
    | none => exact (Stab.traverse _ fun y => (ht {} y).set).bind fun _ => Stab.pure _
  | .map k t, h, o, old => by
    simp only [noExtension, Bool.and_eq_true] at h
    simp only [decCore]
    refine (readSeqLen_stab hv).bind fun l => Stab.ite (fun _ => Stab.pure _) fun _ => ?_
    refine (Stab.repeat ?_ l).bind fun _ => Stab.pure _
    exact ((decCore_stab hv k h.1 {} _).bind fun x => ((decCore_stab hv t h.2 {} _).bind fun y => Stab.pure _).set).set
  | .struct fs, h, o, old => by
    simp only [noExtension] at h
    simp only [decCore, decStruct]
    refine Stab.ite (fun _ => ?_) fun _ => (decFields_stab hv fs h [] false _).bind fun _ => Stab.pure _
    refine (Stab.prim hv readUint8_prim readUint8_stable).bind fun tag => Stab.ite (fun _ => Stab.err _) fun _ => ?_
    exact (decNth_stab hv fs h _ _).bind fun _ => Stab.pure _
  | .iface, _, _, _ => by simp only [decCore]; exact Stab.pure _
  | .bool, _, o, _ => by simp only [decCore]; exact decPlain_stab hv _ o
  | .uint w _, _, o, _ => by simp only [decCore]; exact decPlain_stab hv _ o
  | .int w _, _, o, _ => by simp only [decCore]; exact decPlain_stab hv _ o
  | .borshEnum, _, o, _ => by simp only [decCore]; exact decPlain_stab hv _ o
  | .f32, _, o, _ => by simp only [decCore]; exact decPlain_stab hv _ o
  | .f64, _, o, _ => by simp only [decCore]; exact decPlain_stab hv _ o
  | .str, _, o, _ => by simp only [decCore]; exact decPlain_stab hv _ o
  | .plainInt, _, _, _ => by simp only [decCore]; exact Stab.err _
  | .plainUint, _, _, _ => by simp only [decCore]; exact Stab.err _
  | .other, _, _, _ => by simp only [decCore]; exact Stab.err _
termination_by structural t => t
theorem decFields_stab (hv : e.valid = true) : (fs : Fields) → noExtensions fs = true → (sm : List (Bytes × Int)) →
    (seen : Bool) → (vs : List Val) → Stab e (decFields e fs sm seen vs)
  | .nil, _, _, _, _ => by simp only [decFields]; exact Stab.pure _
  | .cons m t fs, _, _, _, [] => by simp only [decFields]; exact Stab.panic
  | .cons m t fs, h, sm, seen, v :: vs => by
    simp only [noExtensions, Bool.and_eq_true] at h
    have hrec := decFields_stab hv fs h.2
    simp only [decFields]
    refine Stab.ite (fun _ => (hrec _ _ _).bind fun _ => Stab.pure _) fun hsk => Stab.ite (fun _ => Stab.panic) fun _ => ?_
    have hb : m.tag.binExt = false := by
      have := h.1.1
      simp only [Bool.or_eq_true, Bool.not_eq_true'] at this
      exact this.resolve_left hsk
    have hx : extensionEnds m = Pure.pure false := by unfold extensionEnds; rw [if_neg (by simp [hb])]
    rw [hx]
    refine (Stab.pure _).bind fun atEnd => Stab.ite (fun _ => (hrec _ _ _).bind fun _ => Stab.pure _) fun _ => ?_
    cases (if e = .borsh then t.directLib else none) with
    | some p => exact (unmarshalLib_stab hv _ _).bind fun _ => (hrec _ _ _).bind fun _ => Stab.pure _
    | none =>
      exact (decField_stab hv t _ v _ (decCore_stab hv t h.1.2 _ v)).bind fun x => (recordSize_stab m t x sm).bind fun sm' =>
        (hrec _ _ _).bind fun _ => Stab.pure _
termination_by structural fs => fs
theorem decNth_stab (hv : e.valid = true) : (fs : Fields) → noExtensions fs = true → (i : Nat) → (vs : List Val) →
    Stab e (decNth e fs i vs)
  | .nil, _, i, vs => by simp only [decNth]; exact Stab.panic
  | .cons m t fs, _, i, [] => by simp only [decNth]; exact Stab.panic
  | .cons m t fs, h, 0, v :: vs => by
    simp only [noExtensions, Bool.and_eq_true] at h
    simp only [decNth]
    exact ((decCore_stab hv t h.1.2 {} v).bind fun _ => Stab.pure _).set
  | .cons m t fs, h, i + 1, v :: vs => by
    simp only [noExtensions, Bool.and_eq_true] at h
    simp only [decNth]
    exact (decNth_stab hv fs h.2 i vs).bind fun _ => Stab.pure _
termination_by structural fs => fs
end

theorem decode_stab (hv : e.valid = true) (t : Ty) (h : noExtension t = true) (old : Val) : Stab e (decode t old) := by
  have key := (decCore_stab hv t h {} old).set (o := .le)
  intro ext d1 d2 hx he
  have hne : ¬ e = .other := by intro h; rw [h] at hv; cases hv
  have hd : ∀ d : Dec, d.enc = e → decode t old d = (setCurD .le >>= fun _ => decCore e t {} old) d := by
    intro d hd
    unfold decode
    rw [M.bind_apply, M.get_apply]
    simp only []
    rw [if_neg (by rw [hd]; exact hne), hd]
  rw [hd d1 he, hd d2 (by rw [hx.enc, he])]
  exact key ext d1 d2 hx he
end

end Verif
