import Verif.Model.Interface
import Verif.Proofs.EncodeWire
/-!
What a write does to a writer that never fails depends only on the encoding and the current field option.
-/
set_option linter.unusedSimpArgs false
namespace Verif

/-- Two encoders on writers that never fail, with the same encoding and field option. -/
structure Enc.Alike (s s' : Enc) : Prop where
  ok : s.sink = okSink
  ok' : s'.sink = okSink
  enc : s.enc = s'.enc
  cur : s.cur = s'.cur

/-- The write has the same outcome and adds the same chunks on alike encoders. -/
def Local {α : Type} (w : EM α) : Prop :=
  ∀ s s' : Enc, s.Alike s' → ∃ r cs c, w s = (r, s.left cs c) ∧ w s' = (r, s'.left cs c)

theorem Enc.Alike.left {s s' : Enc} (h : s.Alike s') (cs : List Bytes) (c : Option Order) : (s.left cs c).Alike (s'.left cs c) :=
  ⟨h.ok, h.ok', h.enc, rfl⟩

theorem Enc.left_self' (s : Enc) : s.left [] s.cur = s := by simp [Enc.left]

theorem Local.lift {α : Type} (r : Res α) : Local (M.lift r) := fun s s' h =>
  ⟨r, [], s.cur, congrArg _ s.left_self'.symm, by rw [h.cur]; exact congrArg _ s'.left_self'.symm⟩
theorem Local.pure {α : Type} (a : α) : Local (Pure.pure a) := Local.lift (.ok a)
theorem Local.err {α : Type} (e : Err) : Local (M.err e : EM α) := Local.lift (.err e)
theorem Local.panic {α : Type} : Local (M.panic : EM α) := Local.lift .panic

theorem Local.setCur (o : Order) : Local (setCurE o) := fun s s' _ =>
  ⟨.ok (), [], some o, by simp [setCurE, Enc.left], by simp [setCurE, Enc.left]⟩

theorem Local.bind {α β : Type} {w : EM α} {f : α → EM β} (h : Local w) (hf : ∀ a, Local (f a)) : Local (w >>= f) := by
  intro s s' ha
  obtain ⟨r, cs, c, h1, h2⟩ := h s s' ha
  cases r with
  | ok a =>
    obtain ⟨r', cs', c', g1, g2⟩ := hf a _ _ (ha.left cs c)
    exact ⟨r', cs ++ cs', c', by rw [M.bind_ok h1, g1, Enc.left_left], by rw [M.bind_ok h2, g2, Enc.left_left]⟩
  | err e => exact ⟨.err e, cs, c, M.bind_err h1, M.bind_err h2⟩
  | panic => exact ⟨.panic, cs, c, M.bind_panic h1, M.bind_panic h2⟩

theorem Local.get {α : Type} {f : Enc → EM α} (hf : ∀ s, Local (f s))
    (hd : ∀ s s' : Enc, s.enc = s'.enc → s.cur = s'.cur → f s = f s') : Local (M.get >>= f) := by
  intro s s' ha
  obtain ⟨r, cs, c, h1, h2⟩ := hf s s s' ha
  refine ⟨r, cs, c, ?_, ?_⟩
  · rw [M.bind_ok (M.get_apply _), h1]
  · rw [M.bind_ok (M.get_apply _), ← hd s s' ha.enc ha.cur, h2]

theorem Local.ite {α : Type} {p : Prop} [Decidable p] {a b : EM α} (ha : Local a) (hb : Local b) : Local (if p then a else b) := by
  split
  · exact ha
  · exact hb

theorem Local.toWriter (b : Bytes) : Local (toWriter b) := by
  have key : ∀ s : Enc, s.sink = okSink → Verif.toWriter b s = (.ok (), s.left [b] s.cur) := by
    intro s h
    unfold Verif.toWriter
    simp [h, okSink, Enc.left, Enc.push]
  intro s s' h
  exact ⟨.ok (), [b], s.cur, key s h.ok, by rw [h.cur]; exact key s' h.ok'⟩

theorem Local.forEach {α : Type} {f : α → EM Unit} (hf : ∀ a, Local (f a)) (xs : List α) : Local (forEachM f xs) := by
  induction xs with
  | nil => exact Local.pure ()
  | cons x xs ih => exact (hf x).bind fun _ => ih

theorem Local.forIndex {α : Type} {f : α → EM Unit} (hf : ∀ a, Local (f a)) (n : Nat) (xs : List α) : Local (forIndexM f n xs) := by
  induction n generalizing xs with
  | zero => exact Local.pure ()
  | succ n ih =>
    cases xs with
    | nil => exact Local.panic
    | cons x xs => exact (hf x).bind fun _ => ih xs

/-! ### primitives -/

theorem Local.writeUVarInt (v : Int) : Local (writeUVarInt v) := (Local.lift _).bind fun _ => Local.toWriter _
theorem Local.writeVarInt (v : Int) : Local (writeVarInt v) := (Local.lift _).bind fun _ => Local.toWriter _
theorem Local.writeByte (b : UInt8) : Local (writeByte b) := Local.toWriter _
theorem Local.writeBool (b : Bool) : Local (writeBool b) := Local.toWriter _
theorem Local.writeOption (b : Bool) : Local (writeOption b) := Local.toWriter _
theorem Local.writeUint8 (n : Nat) : Local (writeUint8 n) := Local.toWriter _
theorem Local.writeInt8 (n : Int) : Local (writeInt8 n) := Local.toWriter _
theorem Local.writeUint16 (n : Nat) (o : Order) : Local (writeUint16 n o) := Local.toWriter _
theorem Local.writeUint32 (n : Nat) (o : Order) : Local (writeUint32 n o) := Local.toWriter _
theorem Local.writeUint64 (n : Nat) (o : Order) : Local (writeUint64 n o) := Local.toWriter _
theorem Local.writeInt16 (n : Int) (o : Order) : Local (writeInt16 n o) := Local.toWriter _
theorem Local.writeInt32 (n : Int) (o : Order) : Local (writeInt32 n o) := Local.toWriter _
theorem Local.writeInt64 (n : Int) (o : Order) : Local (writeInt64 n o) := Local.toWriter _
theorem Local.writeUint128 (lo hi : Nat) (o : Order) : Local (writeUint128 lo hi o) := by cases o <;> exact Local.toWriter _
theorem Local.writeInt128 (lo hi : Nat) (o : Order) : Local (writeInt128 lo hi o) := by cases o <;> exact Local.toWriter _
theorem Local.writeCOption (b : Bool) : Local (writeCOption b) := Local.toWriter _
theorem Local.writeFloat32 (n : Nat) (o : Order) : Local (writeFloat32 n o) :=
  Local.get (fun _ => (Local.err _).ite (Local.toWriter _)) (fun _ _ h1 h2 => by simp only [h1, h2])
theorem Local.writeFloat64 (n : Nat) (o : Order) : Local (writeFloat64 n o) :=
  Local.get (fun _ => (Local.err _).ite (Local.toWriter _)) (fun _ _ h1 h2 => by simp only [h1, h2])
theorem Local.writeRaw (b : Bytes) : Local (writeRaw b) := (Local.pure _).ite (Local.toWriter _)
theorem Local.writeLength (n : Int) : Local (writeLength n) := by
  refine Local.get (fun s => ?_) (fun _ _ h1 h2 => by simp only [h1, h2])
  cases s.enc
  · exact Local.writeUVarInt _
  · exact Local.writeRaw _
  · exact Local.writeUint32 _ _
  · exact Local.panic
theorem Local.writeBytes (b : Bytes) (l : Bool) : Local (writeBytes b l) :=
  ((Local.writeLength _).bind fun _ => Local.writeRaw _).ite (Local.writeRaw _)
theorem Local.writeString (b : Bytes) : Local (writeString b) := Local.writeBytes _ _
theorem Local.writeRustString (b : Bytes) : Local (writeRustString b) := (Local.writeUint64 _ _).bind fun _ => Local.writeBytes _ _
theorem Local.writeCompactU16 (n : Int) : Local (writeCompactU16 n) := Local.toWriter _

theorem Local.marshalLib (l : Lib) (v : Val) : Local (marshalLib l v) := by
  have hc : ∀ f : Order → EM Unit, (∀ o, Local (f o)) → Local (M.get >>= fun e : Enc =>
      match e.cur with
      | none => M.panic
      | some o => f o) := by
    intro f hf
    refine Local.get (fun s => ?_) (fun _ _ h1 h2 => by simp only [h1, h2])
    cases s.cur
    · exact Local.panic
    · exact hf _
  unfold Verif.marshalLib
  split
  · exact Local.writeString _
  · exact Local.writeBool _
  · exact Local.writeBytes _ _
  · exact Local.writeVarInt _
  · exact Local.writeUVarInt _
  · exact Local.writeUVarInt _
  · exact Local.writeVarInt _
  · exact hc _ fun _ => Local.writeFloat64 _ _
  · exact hc _ fun _ => Local.writeInt64 _ _
  · exact hc _ fun _ => Local.writeUint64 _ _
  · exact Local.get (fun _ => Local.writeUint128 _ _ _) (fun _ _ h1 h2 => by simp only [h1, h2])
  · exact Local.get (fun _ => Local.writeInt128 _ _ _) (fun _ _ h1 h2 => by simp only [h1, h2])
  · exact Local.get (fun _ => Local.writeUint128 _ _ _) (fun _ _ h1 h2 => by simp only [h1, h2])
  · exact Local.pure ()
  · exact Local.panic

theorem Local.encScalar {e : Encoding} {k : Kind} {o : Order} {v : Val} {w : EM Unit} (h : encScalar e k o v = some w) :
    Local w := by
  unfold Verif.encScalar at h
  split at h <;> first
    | (simp only [Option.some.injEq] at h; subst h; first
        | exact (Local.writeRustString _).ite (Local.writeString _)
        | exact Local.writeByte _
        | exact Local.toWriter _
        | exact Local.writeFloat32 _ _
        | exact Local.writeFloat64 _ _
        | exact Local.panic)
    | exact absurd h (by simp)

theorem Local.scalarD {e : Encoding} {k : Kind} {o : Order} {v : Val} {d : EM Unit} (hd : Local d) :
    Local ((Verif.encScalar e k o v).getD d) := by
  cases h : Verif.encScalar e k o v with
  | none => exact hd
  | some w => exact Local.encScalar h

theorem Local.writeUints (l : Int) (w : Width) (xs : List Val) : Local (writeUints l w xs) := by
  unfold Verif.writeUints
  refine Local.panic.ite (Local.panic.ite ?_)
  split
  · exact Local.panic
  · exact Local.writeBytes _ _

theorem Local.writeSeqLen (e : Encoding) (n : Nat) : Local (writeSeqLen e n) := by
  cases e
  · exact Local.writeUVarInt _
  · exact Local.writeCompactU16 _
  · exact Local.writeUint32 _ _
  · exact Local.panic

theorem Local.writeFlag (e : Encoding) (b : Bool) : Local (writeFlag e b) := by
  cases e <;> exact Local.toWriter _

theorem Local.mapEntries (e : Encoding) (k : Ty) (m : List (Val × Val)) : Local (mapEntries e k m) :=
  ((Local.pure _).ite ((Local.pure _).ite Local.panic)).ite (Local.pure _)

theorem Local.encFlags (e : Encoding) (t : Ty) (o : Opt) (v : Val) : Local (encFlags e t o v) := by
  have hb : Local (if e = .borsh ∧ o.coptional then
      if t.isZero v then do
        Verif.writeCOption false
        Pure.pure false
      else do
        Verif.writeCOption true
        Pure.pure true
    else Pure.pure true : EM Bool) :=
    (((Local.writeCOption _).bind fun _ => Local.pure _).ite ((Local.writeCOption _).bind fun _ => Local.pure _)).ite (Local.pure _)
  unfold Verif.encFlags
  refine ((Local.writeFlag _ _).bind fun _ => Local.pure _).ite ?_
  exact ((Local.writeFlag _ _).bind fun _ => hb).ite hb

theorem Local.recordSize (m : FieldMeta) (t : Ty) (v : Val) (sm : List (Bytes × Int)) : Local (recordSize m t v sm : EM _) :=
  (Local.pure _).ite ((Local.lift _).bind fun _ => Local.pure _)

theorem Local.encStruct {e : Encoding} {fs : Fields} {vs : List Val} {fields : EM Unit} {nth : Nat → EM Unit}
    (h1 : Local fields) (h2 : ∀ i, Local (nth i)) : Local (encStruct e fs vs fields nth) := by
  unfold Verif.encStruct
  split
  · split
    · exact (Local.writeByte _).bind fun _ => (Local.err _).ite (h2 _)
    · exact Local.panic
  · exact h1

theorem Local.encLibPayload (e : Encoding) (l : Lib) (v : Val) : Local (encLibPayload e l v) := by
  have h128 : Local (encU128Fields v) := by
    cases v <;> first
      | exact Local.panic
      | exact (Local.setCur _).bind fun _ => (Local.writeUint64 _ _).bind fun _ => (Local.setCur _).bind fun _ =>
          (Local.writeUint64 _ _).bind fun _ => Local.setCur _
  cases l <;> first
    | exact h128
    | exact Local.pure ()
    | exact Local.scalarD (Local.pure ())

theorem Local.encPlain (e : Encoding) (k : Kind) (o : Opt) (v : Val) : Local (encPlain e k o v) := Local.scalarD Local.panic

mutual
theorem Local.encCore (e : Encoding) : (t : Ty) → (o : Opt) → (v : Val) → Local (encCore e t o v)
  | .lib l, o, v => by simp only [Verif.encCore]; exact Local.marshalLib _ _
  | .ptr t, o, v => by
    cases v <;> simp only [Verif.encCore] <;> try exact Local.panic
    rename_i p
    cases t.asLib with
    | some l =>
      cases p with
      | some x => exact Local.marshalLib _ _
      | none => exact (Local.pure ()).ite Local.panic
    | none =>
      refine Local.ite ((Local.setCur _).bind fun _ => Local.encCore e t _ _) ((Local.setCur _).bind fun _ => ?_)
      cases p with
      | none => exact Local.pure ()
      | some x => exact Local.encCore e t _ _
  | .slice t, o, v => by
    cases v <;> simp only [Verif.encCore] <;> try exact Local.panic
    rename_i xs
    have hb : ∀ l : Int, Local (match t.uintKind with
      | some w => Verif.writeUints l w (xs.getD [])
      | none => forIndexM (fun x => do setCurE .le; Verif.encCore e t {} x) l.toNat (xs.getD [])) := by
      intro l
      cases t.uintKind with
      | some w => exact Local.writeUints _ _ _
      | none => exact Local.forIndex (fun x => (Local.setCur _).bind fun _ => Local.encCore e t _ _) _ _
    cases o.sizeOf with
    | some s => exact hb s
    | none => exact (Local.writeSeqLen _ _).bind fun _ => hb _
  | .array n t, o, v => by
    cases v <;> simp only [Verif.encCore] <;> try exact Local.panic
    cases t.uintKind with
    | some w => exact Local.writeUints _ _ _
    | none => exact Local.forIndex (fun x => (Local.setCur _).bind fun _ => Local.encCore e t _ _) _ _
  | .map k t, o, v => by
    cases v <;> simp only [Verif.encCore] <;> try exact Local.panic
    exact (Local.mapEntries _ _ _).bind fun m => (Local.writeSeqLen _ _).bind fun _ => Local.forEach (fun x =>
      (Local.setCur _).bind fun _ => (Local.encCore e k _ _).bind fun _ => by
        split
        · exact (Local.setCur _).bind fun _ => Local.encCore e t _ _
        · exact Local.panic) _
  | .struct fs, o, v => by
    cases v <;> simp only [Verif.encCore] <;> try exact Local.panic
    exact Local.encStruct (Local.encFields e fs _ _) fun i => Local.encNth e fs i _
  | .iface, o, v => by
    cases v <;> simp only [Verif.encCore] <;> first | exact Local.panic | exact Local.pure ()
  | .bool, o, v => by simp only [Verif.encCore]; exact Local.encPlain _ _ _ _
  | .uint w _, o, v => by simp only [Verif.encCore]; exact Local.encPlain _ _ _ _
  | .int w _, o, v => by simp only [Verif.encCore]; exact Local.encPlain _ _ _ _
  | .borshEnum, o, v => by simp only [Verif.encCore]; exact Local.encPlain _ _ _ _
  | .f32, o, v => by simp only [Verif.encCore]; exact Local.encPlain _ _ _ _
  | .f64, o, v => by simp only [Verif.encCore]; exact Local.encPlain _ _ _ _
  | .str, o, v => by simp only [Verif.encCore]; exact Local.encPlain _ _ _ _
  | .plainInt, _, _ => by simp only [Verif.encCore]; exact Local.err _
  | .plainUint, _, _ => by simp only [Verif.encCore]; exact Local.err _
  | .other, _, _ => by simp only [Verif.encCore]; exact Local.err _
termination_by structural t => t
theorem Local.encFields (e : Encoding) : (fs : Fields) → (sm : List (Bytes × Int)) → (vs : List Val) → Local (encFields e fs sm vs)
  | .nil, _, _ => by simp only [Verif.encFields]; exact Local.pure ()
  | .cons _ _ _, _, [] => by simp only [Verif.encFields]; exact Local.panic
  | .cons m t fs, sm, v :: vs => by
    simp only [Verif.encFields]
    refine (Local.encFields e fs sm vs).ite ((Local.recordSize _ _ _ _).bind fun sm => ?_)
    refine Local.ite ((Local.setCur _).bind fun _ => (Local.encFlags _ _ _ _).bind fun more => ?_) (Local.encFields e fs sm vs)
    exact Local.ite ((Local.encCore e t _ _).bind fun _ => Local.encFields e fs sm vs) (Local.encFields e fs sm vs)
termination_by structural fs => fs
theorem Local.encNth (e : Encoding) : (fs : Fields) → (i : Nat) → (vs : List Val) → Local (encNth e fs i vs)
  | .nil, i, vs => by simp only [Verif.encNth]; exact Local.panic
  | .cons _ t _, 0, [] => by simp only [Verif.encNth]; exact Local.panic
  | .cons _ t _, 0, v :: _ => by simp only [Verif.encNth]; exact Local.encPayload e t v
  | .cons _ _ fs, i + 1, [] => by simp only [Verif.encNth]; exact Local.panic
  | .cons _ _ fs, i + 1, _ :: vs => by simp only [Verif.encNth]; exact Local.encNth e fs i vs
termination_by structural fs => fs
theorem Local.encPayload (e : Encoding) : (t : Ty) → (v : Val) → Local (encPayload e t v)
  | .ptr t, v => by
    cases v <;> simp only [Verif.encPayload] <;> try exact Local.panic
    rename_i p
    cases p with
    | none => exact Local.pure ()
    | some x => exact Local.encVariant e t x
  | .struct fs, v => by
    cases v <;> simp only [Verif.encPayload] <;> try exact Local.panic
    exact Local.encStruct (Local.encFields e fs _ _) fun i => Local.encNth e fs i _
  | .lib l, v => by simp only [Verif.encPayload]; exact Local.encLibPayload _ _ _
  | .bool, v => by simp only [Verif.encPayload]; exact Local.scalarD (Local.pure ())
  | .uint _ _, v => by simp only [Verif.encPayload]; exact Local.scalarD (Local.pure ())
  | .int _ _, v => by simp only [Verif.encPayload]; exact Local.scalarD (Local.pure ())
  | .borshEnum, v => by simp only [Verif.encPayload]; exact Local.scalarD (Local.pure ())
  | .f32, v => by simp only [Verif.encPayload]; exact Local.scalarD (Local.pure ())
  | .f64, v => by simp only [Verif.encPayload]; exact Local.scalarD (Local.pure ())
  | .str, v => by simp only [Verif.encPayload]; exact Local.scalarD (Local.pure ())
  | .slice _, v => by simp only [Verif.encPayload]; exact Local.scalarD (Local.pure ())
  | .array _ _, v => by simp only [Verif.encPayload]; exact Local.scalarD (Local.pure ())
  | .map _ _, v => by simp only [Verif.encPayload]; exact Local.scalarD (Local.pure ())
  | .iface, v => by simp only [Verif.encPayload]; exact Local.scalarD (Local.pure ())
  | .plainInt, v => by simp only [Verif.encPayload]; exact Local.scalarD (Local.pure ())
  | .plainUint, v => by simp only [Verif.encPayload]; exact Local.scalarD (Local.pure ())
  | .other, v => by simp only [Verif.encPayload]; exact Local.scalarD (Local.pure ())
termination_by structural t => t
theorem Local.encVariant (e : Encoding) : (t : Ty) → (v : Val) → Local (encVariant e t v)
  | .struct fs, v => by
    cases v <;> simp only [Verif.encVariant] <;> try exact Local.panic
    exact Local.encStruct (Local.encFields e fs _ _) fun i => Local.encNth e fs i _
  | .lib l, v => by simp only [Verif.encVariant]; exact Local.encLibPayload _ _ _
  | .bool, v => by simp only [Verif.encVariant]; exact Local.scalarD (Local.pure ())
  | .uint _ _, v => by simp only [Verif.encVariant]; exact Local.scalarD (Local.pure ())
  | .int _ _, v => by simp only [Verif.encVariant]; exact Local.scalarD (Local.pure ())
  | .borshEnum, v => by simp only [Verif.encVariant]; exact Local.scalarD (Local.pure ())
  | .f32, v => by simp only [Verif.encVariant]; exact Local.scalarD (Local.pure ())
  | .f64, v => by simp only [Verif.encVariant]; exact Local.scalarD (Local.pure ())
  | .str, v => by simp only [Verif.encVariant]; exact Local.scalarD (Local.pure ())
  | .ptr _, v => by simp only [Verif.encVariant]; exact Local.scalarD (Local.pure ())
  | .slice _, v => by simp only [Verif.encVariant]; exact Local.scalarD (Local.pure ())
  | .array _ _, v => by simp only [Verif.encVariant]; exact Local.scalarD (Local.pure ())
  | .map _ _, v => by simp only [Verif.encVariant]; exact Local.scalarD (Local.pure ())
  | .iface, v => by simp only [Verif.encVariant]; exact Local.scalarD (Local.pure ())
  | .plainInt, v => by simp only [Verif.encVariant]; exact Local.scalarD (Local.pure ())
  | .plainUint, v => by simp only [Verif.encVariant]; exact Local.scalarD (Local.pure ())
  | .other, v => by simp only [Verif.encVariant]; exact Local.scalarD (Local.pure ())
termination_by structural t => t
end

theorem Local.encode (t : Ty) (v : Val) : Local (encode t v) := by
  refine Local.get (fun s => ?_) (fun _ _ h1 h2 => by simp only [h1, h2])
  exact Local.panic.ite ((Local.setCur _).bind fun _ => Local.encCore _ _ _ _)

end Verif
