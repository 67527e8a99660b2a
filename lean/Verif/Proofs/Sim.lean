import Verif.Model.Interface
import Verif.Proofs.EncodeWire
/-!
Running a write on a writer that fails is running it on one that does not, cut at the first refused chunk.
-/
set_option linter.unusedSimpArgs false
namespace Verif

/-- The writer accepts these chunks one after the other. -/
def Accepts (k : Sink) : List Bytes → List Bytes → Prop
  | _, [] => True
  | log, c :: cs => k log c = true ∧ Accepts k (log ++ [c]) cs

theorem accepts_append (k : Sink) (log a b : List Bytes) :
    Accepts k log (a ++ b) ↔ Accepts k log a ∧ Accepts k (log ++ a) b := by
  induction a generalizing log with
  | nil => simp [Accepts]
  | cons x a ih => simp [Accepts, ih, and_assoc]

/-- The same encoder on a writer that never fails. -/
def Enc.okd (s : Enc) : Enc := { s with sink := okSink }

@[simp] theorem Enc.okd_left (s : Enc) (cs c) : (s.left cs c).okd = s.okd.left cs c := rfl
@[simp] theorem Enc.left_log (s : Enc) (cs c) : (s.left cs c).log = s.log ++ cs := rfl
@[simp] theorem Enc.left_sink (s : Enc) (cs c) : (s.left cs c).sink = s.sink := rfl

def Sim {α : Type} (w : EM α) : Prop :=
  ∀ s : Enc, ∃ r cs c, w s.okd = (r, s.okd.left cs c) ∧
    ((Accepts s.sink s.log cs ∧ w s = (r, s.left cs c)) ∨
     ∃ pre b post c', cs = pre ++ b :: post ∧ Accepts s.sink s.log pre ∧ s.sink (s.log ++ pre) b = false ∧
       w s = (.err .write, s.left (pre ++ [b]) c'))

theorem Enc.left_self (s : Enc) : s.left [] s.cur = s := by simp [Enc.left]

theorem Sim.lift {α : Type} (r : Res α) : Sim (M.lift r) := fun s =>
  ⟨r, [], s.cur, by rw [M.lift_apply]; exact congrArg _ s.okd.left_self.symm, Or.inl ⟨trivial, by simpa using s.left_self.symm⟩⟩
theorem Sim.pure {α : Type} (a : α) : Sim (Pure.pure a) := Sim.lift (.ok a)
theorem Sim.err {α : Type} (e : Err) : Sim (M.err e : EM α) := Sim.lift (.err e)
theorem Sim.panic {α : Type} : Sim (M.panic : EM α) := Sim.lift .panic

theorem Sim.setCur (o : Order) : Sim (setCurE o) := fun s =>
  ⟨.ok (), [], some o, by simp [setCurE, Enc.left, Enc.okd], Or.inl ⟨trivial, by simp [setCurE, Enc.left]⟩⟩

theorem Sim.bind {α β : Type} {w : EM α} {f : α → EM β} (h : Sim w) (hf : ∀ a, Sim (f a)) : Sim (w >>= f) := by
  intro s
  obtain ⟨r, cs, c, h1, h2⟩ := h s
  cases r with
  | ok a =>
    obtain ⟨r', cs', c', g1, g2⟩ := hf a (s.left cs c)
    refine ⟨r', cs ++ cs', c', ?_, ?_⟩
    · rw [M.bind_ok h1, ← Enc.okd_left, g1]; simp
    · rcases h2 with ⟨ha, hw⟩ | ⟨pre, b, post, k, rfl, ha, hb, hw⟩
      · rcases g2 with ⟨ga, gw⟩ | ⟨pre, b, post, k, rfl, ga, gb, gw⟩
        · left
          refine ⟨(accepts_append _ _ _ _).mpr ⟨ha, ga⟩, ?_⟩
          rw [M.bind_ok hw, gw, Enc.left_left]
        · right
          refine ⟨cs ++ pre, b, post, k, by simp, (accepts_append _ _ _ _).mpr ⟨ha, ga⟩, by simpa using gb, ?_⟩
          rw [M.bind_ok hw, gw, Enc.left_left]; simp
      · right
        exact ⟨pre, b, post ++ cs', k, by simp, ha, hb, M.bind_err hw⟩
  | err e =>
    refine ⟨.err e, cs, c, M.bind_err h1, ?_⟩
    rcases h2 with ⟨ha, hw⟩ | ⟨pre, b, post, k, h3, ha, hb, hw⟩
    · exact Or.inl ⟨ha, M.bind_err hw⟩
    · exact Or.inr ⟨pre, b, post, k, h3, ha, hb, M.bind_err hw⟩
  | panic =>
    refine ⟨.panic, cs, c, M.bind_panic h1, ?_⟩
    rcases h2 with ⟨ha, hw⟩ | ⟨pre, b, post, k, h3, ha, hb, hw⟩
    · exact Or.inl ⟨ha, M.bind_panic hw⟩
    · exact Or.inr ⟨pre, b, post, k, h3, ha, hb, M.bind_err hw⟩

theorem Sim.get {α : Type} {f : Enc → EM α} (hf : ∀ s, Sim (f s)) (hd : ∀ s : Enc, f s.okd = f s) : Sim (M.get >>= f) := by
  intro s
  obtain ⟨r, cs, c, h1, h2⟩ := hf s s
  refine ⟨r, cs, c, ?_, ?_⟩
  · rw [M.bind_ok (M.get_apply _), hd, h1]
  · rw [M.bind_ok (M.get_apply _)]; exact h2

theorem Sim.ite {α : Type} {p : Prop} [Decidable p] {a b : EM α} (ha : Sim a) (hb : Sim b) : Sim (if p then a else b) := by
  split
  · exact ha
  · exact hb

theorem Sim.toWriter (b : Bytes) : Sim (toWriter b) := by
  intro s
  have e1 : ∀ s : Enc, s.left [b] s.cur = { s with count := s.count + b.length, log := s.log ++ [b] } := by
    intro s; simp [Enc.left, Enc.push]
  refine ⟨.ok (), [b], s.cur, ?_, ?_⟩
  · rw [show s.cur = s.okd.cur from rfl, e1]; rfl
  · by_cases h : s.sink s.log b = true
    · left
      exact ⟨⟨h, trivial⟩, by rw [e1]; unfold Verif.toWriter; simp [h]⟩
    · right
      exact ⟨[], b, [], s.cur, rfl, trivial, by simpa using h, by rw [List.nil_append, e1]; unfold Verif.toWriter; simp [h]⟩

theorem Sim.forEach {α : Type} {f : α → EM Unit} (hf : ∀ a, Sim (f a)) (xs : List α) : Sim (forEachM f xs) := by
  induction xs with
  | nil => exact Sim.pure ()
  | cons x xs ih => exact (hf x).bind fun _ => ih

theorem Sim.forIndex {α : Type} {f : α → EM Unit} (hf : ∀ a, Sim (f a)) (n : Nat) (xs : List α) : Sim (forIndexM f n xs) := by
  induction n generalizing xs with
  | zero => exact Sim.pure ()
  | succ n ih =>
    cases xs with
    | nil => exact Sim.panic
    | cons x xs => exact (hf x).bind fun _ => ih xs

/-! ### primitives -/

theorem Sim.writeUVarInt (v : Int) : Sim (writeUVarInt v) := (Sim.lift _).bind fun _ => Sim.toWriter _
theorem Sim.writeVarInt (v : Int) : Sim (writeVarInt v) := (Sim.lift _).bind fun _ => Sim.toWriter _
theorem Sim.writeByte (b : UInt8) : Sim (writeByte b) := Sim.toWriter _
theorem Sim.writeBool (b : Bool) : Sim (writeBool b) := Sim.toWriter _
theorem Sim.writeOption (b : Bool) : Sim (writeOption b) := Sim.toWriter _
theorem Sim.writeUint8 (n : Nat) : Sim (writeUint8 n) := Sim.toWriter _
theorem Sim.writeInt8 (n : Int) : Sim (writeInt8 n) := Sim.toWriter _
theorem Sim.writeUint16 (n : Nat) (o : Order) : Sim (writeUint16 n o) := Sim.toWriter _
theorem Sim.writeUint32 (n : Nat) (o : Order) : Sim (writeUint32 n o) := Sim.toWriter _
theorem Sim.writeUint64 (n : Nat) (o : Order) : Sim (writeUint64 n o) := Sim.toWriter _
theorem Sim.writeInt16 (n : Int) (o : Order) : Sim (writeInt16 n o) := Sim.toWriter _
theorem Sim.writeInt32 (n : Int) (o : Order) : Sim (writeInt32 n o) := Sim.toWriter _
theorem Sim.writeInt64 (n : Int) (o : Order) : Sim (writeInt64 n o) := Sim.toWriter _
theorem Sim.writeUint128 (lo hi : Nat) (o : Order) : Sim (writeUint128 lo hi o) := by cases o <;> exact Sim.toWriter _
theorem Sim.writeInt128 (lo hi : Nat) (o : Order) : Sim (writeInt128 lo hi o) := by cases o <;> exact Sim.toWriter _
theorem Sim.writeCOption (b : Bool) : Sim (writeCOption b) := Sim.toWriter _
theorem Sim.writeFloat32 (n : Nat) (o : Order) : Sim (writeFloat32 n o) :=
  Sim.get (fun _ => (Sim.err _).ite (Sim.toWriter _)) fun _ => rfl
theorem Sim.writeFloat64 (n : Nat) (o : Order) : Sim (writeFloat64 n o) :=
  Sim.get (fun _ => (Sim.err _).ite (Sim.toWriter _)) fun _ => rfl
theorem Sim.writeRaw (b : Bytes) : Sim (writeRaw b) := (Sim.pure _).ite (Sim.toWriter _)
theorem Sim.writeLength (n : Int) : Sim (writeLength n) := by
  refine Sim.get (fun s => ?_) fun _ => rfl
  cases s.enc
  · exact Sim.writeUVarInt _
  · exact Sim.writeRaw _
  · exact Sim.writeUint32 _ _
  · exact Sim.panic
theorem Sim.writeBytes (b : Bytes) (l : Bool) : Sim (writeBytes b l) :=
  ((Sim.writeLength _).bind fun _ => Sim.writeRaw _).ite (Sim.writeRaw _)
theorem Sim.writeString (b : Bytes) : Sim (writeString b) := Sim.writeBytes _ _
theorem Sim.writeRustString (b : Bytes) : Sim (writeRustString b) := (Sim.writeUint64 _ _).bind fun _ => Sim.writeBytes _ _
theorem Sim.writeCompactU16 (n : Int) : Sim (writeCompactU16 n) := Sim.toWriter _

theorem Sim.marshalLib (l : Lib) (v : Val) : Sim (marshalLib l v) := by
  have hc : ∀ f : Order → EM Unit, (∀ o, Sim (f o)) → Sim (M.get >>= fun e : Enc =>
      match e.cur with
      | none => M.panic
      | some o => f o) := by
    intro f hf
    refine Sim.get (fun s => ?_) fun _ => rfl
    cases s.cur
    · exact Sim.panic
    · exact hf _
  unfold Verif.marshalLib
  split
  · exact Sim.writeString _
  · exact Sim.writeBool _
  · exact Sim.writeBytes _ _
  · exact Sim.writeVarInt _
  · exact Sim.writeUVarInt _
  · exact Sim.writeUVarInt _
  · exact Sim.writeVarInt _
  · exact hc _ fun _ => Sim.writeFloat64 _ _
  · exact hc _ fun _ => Sim.writeInt64 _ _
  · exact hc _ fun _ => Sim.writeUint64 _ _
  · exact Sim.get (fun _ => Sim.writeUint128 _ _ _) fun _ => rfl
  · exact Sim.get (fun _ => Sim.writeInt128 _ _ _) fun _ => rfl
  · exact Sim.get (fun _ => Sim.writeUint128 _ _ _) fun _ => rfl
  · exact Sim.pure ()
  · exact Sim.panic

theorem Sim.encScalar {e : Encoding} {k : Kind} {o : Order} {v : Val} {w : EM Unit} (h : encScalar e k o v = some w) :
    Sim w := by
  unfold Verif.encScalar at h
  split at h <;> first
    | (simp only [Option.some.injEq] at h; subst h; first
        | exact (Sim.writeRustString _).ite (Sim.writeString _)
        | exact Sim.writeByte _
        | exact Sim.toWriter _
        | exact Sim.writeFloat32 _ _
        | exact Sim.writeFloat64 _ _
        | exact Sim.panic)
    | exact absurd h (by simp)

theorem Sim.scalarD {e : Encoding} {k : Kind} {o : Order} {v : Val} {d : EM Unit} (hd : Sim d) :
    Sim ((Verif.encScalar e k o v).getD d) := by
  cases h : Verif.encScalar e k o v with
  | none => exact hd
  | some w => exact Sim.encScalar h

theorem Sim.writeUints (l : Int) (w : Width) (xs : List Val) : Sim (writeUints l w xs) := by
  unfold Verif.writeUints
  refine Sim.panic.ite (Sim.panic.ite ?_)
  split
  · exact Sim.panic
  · exact Sim.writeBytes _ _

theorem Sim.writeSeqLen (e : Encoding) (n : Nat) : Sim (writeSeqLen e n) := by
  cases e
  · exact Sim.writeUVarInt _
  · exact Sim.writeCompactU16 _
  · exact Sim.writeUint32 _ _
  · exact Sim.panic

theorem Sim.writeFlag (e : Encoding) (b : Bool) : Sim (writeFlag e b) := by
  cases e <;> exact Sim.toWriter _

theorem Sim.mapEntries (e : Encoding) (k : Ty) (m : List (Val × Val)) : Sim (mapEntries e k m) :=
  ((Sim.pure _).ite ((Sim.pure _).ite Sim.panic)).ite (Sim.pure _)

theorem Sim.encFlags (e : Encoding) (t : Ty) (o : Opt) (v : Val) : Sim (encFlags e t o v) := by
  have hb : Sim (if e = .borsh ∧ o.coptional then
      if t.isZero v then do
        Verif.writeCOption false
        Pure.pure false
      else do
        Verif.writeCOption true
        Pure.pure true
    else Pure.pure true : EM Bool) :=
    (((Sim.writeCOption _).bind fun _ => Sim.pure _).ite ((Sim.writeCOption _).bind fun _ => Sim.pure _)).ite (Sim.pure _)
  unfold Verif.encFlags
  refine ((Sim.writeFlag _ _).bind fun _ => Sim.pure _).ite ?_
  exact ((Sim.writeFlag _ _).bind fun _ => hb).ite hb

theorem Sim.recordSize (m : FieldMeta) (t : Ty) (v : Val) (sm : List (Bytes × Int)) : Sim (recordSize m t v sm : EM _) :=
  (Sim.pure _).ite ((Sim.lift _).bind fun _ => Sim.pure _)

theorem Sim.encStruct {e : Encoding} {fs : Fields} {vs : List Val} {fields : EM Unit} {nth : Nat → EM Unit}
    (h1 : Sim fields) (h2 : ∀ i, Sim (nth i)) : Sim (encStruct e fs vs fields nth) := by
  unfold Verif.encStruct
  split
  · split
    · exact (Sim.writeByte _).bind fun _ => (Sim.err _).ite (h2 _)
    · exact Sim.panic
  · exact h1

theorem Sim.encLibPayload (e : Encoding) (l : Lib) (v : Val) : Sim (encLibPayload e l v) := by
  have h128 : Sim (encU128Fields v) := by
    cases v <;> first
      | exact Sim.panic
      | exact (Sim.setCur _).bind fun _ => (Sim.writeUint64 _ _).bind fun _ => (Sim.setCur _).bind fun _ =>
          (Sim.writeUint64 _ _).bind fun _ => Sim.setCur _
  cases l <;> first
    | exact h128
    | exact Sim.pure ()
    | exact Sim.scalarD (Sim.pure ())

theorem Sim.encPlain (e : Encoding) (k : Kind) (o : Opt) (v : Val) : Sim (encPlain e k o v) := Sim.scalarD Sim.panic

mutual
theorem Sim.encCore (e : Encoding) : (t : Ty) → (o : Opt) → (v : Val) → Sim (encCore e t o v)
  | .lib l, o, v => by simp only [Verif.encCore]; exact Sim.marshalLib _ _
  | .ptr t, o, v => by
    cases v <;> simp only [Verif.encCore] <;> try exact Sim.panic
    rename_i p
    cases t.asLib with
    | some l =>
      cases p with
      | some x => exact Sim.marshalLib _ _
      | none => exact (Sim.pure ()).ite Sim.panic
    | none =>
      refine Sim.ite ((Sim.setCur _).bind fun _ => Sim.encCore e t _ _) ((Sim.setCur _).bind fun _ => ?_)
      cases p with
      | none => exact Sim.pure ()
      | some x => exact Sim.encCore e t _ _
  | .slice t, o, v => by
    cases v <;> simp only [Verif.encCore] <;> try exact Sim.panic
    rename_i xs
    have hb : ∀ l : Int, Sim (match t.uintKind with
      | some w => Verif.writeUints l w (xs.getD [])
      | none => forIndexM (fun x => do setCurE .le; Verif.encCore e t {} x) l.toNat (xs.getD [])) := by
      intro l
      cases t.uintKind with
      | some w => exact Sim.writeUints _ _ _
      | none => exact Sim.forIndex (fun x => (Sim.setCur _).bind fun _ => Sim.encCore e t _ _) _ _
    cases o.sizeOf with
    | some s => exact hb s
    | none => exact (Sim.writeSeqLen _ _).bind fun _ => hb _
  | .array n t, o, v => by
    cases v <;> simp only [Verif.encCore] <;> try exact Sim.panic
    cases t.uintKind with
    | some w => exact Sim.writeUints _ _ _
    | none => exact Sim.forIndex (fun x => (Sim.setCur _).bind fun _ => Sim.encCore e t _ _) _ _
  | .map k t, o, v => by
    cases v <;> simp only [Verif.encCore] <;> try exact Sim.panic
    exact (Sim.mapEntries _ _ _).bind fun m => (Sim.writeSeqLen _ _).bind fun _ => Sim.forEach (fun x =>
      (Sim.setCur _).bind fun _ => (Sim.encCore e k _ _).bind fun _ => by
        split
        · exact (Sim.setCur _).bind fun _ => Sim.encCore e t _ _
        · exact Sim.panic) _
  | .struct fs, o, v => by
    cases v <;> simp only [Verif.encCore] <;> try exact Sim.panic
    exact Sim.encStruct (Sim.encFields e fs _ _) fun i => Sim.encNth e fs i _
  | .iface, o, v => by
    cases v <;> simp only [Verif.encCore] <;> first | exact Sim.panic | exact Sim.pure ()
  | .bool, o, v => by simp only [Verif.encCore]; exact Sim.encPlain _ _ _ _
  | .uint w _, o, v => by simp only [Verif.encCore]; exact Sim.encPlain _ _ _ _
  | .int w _, o, v => by simp only [Verif.encCore]; exact Sim.encPlain _ _ _ _
  | .borshEnum, o, v => by simp only [Verif.encCore]; exact Sim.encPlain _ _ _ _
  | .f32, o, v => by simp only [Verif.encCore]; exact Sim.encPlain _ _ _ _
  | .f64, o, v => by simp only [Verif.encCore]; exact Sim.encPlain _ _ _ _
  | .str, o, v => by simp only [Verif.encCore]; exact Sim.encPlain _ _ _ _
  | .plainInt, _, _ => by simp only [Verif.encCore]; exact Sim.err _
  | .plainUint, _, _ => by simp only [Verif.encCore]; exact Sim.err _
  | .other, _, _ => by simp only [Verif.encCore]; exact Sim.err _
termination_by structural t => t
theorem Sim.encFields (e : Encoding) : (fs : Fields) → (sm : List (Bytes × Int)) → (vs : List Val) → Sim (encFields e fs sm vs)
  | .nil, _, _ => by simp only [Verif.encFields]; exact Sim.pure ()
  | .cons _ _ _, _, [] => by simp only [Verif.encFields]; exact Sim.panic
  | .cons m t fs, sm, v :: vs => by
    simp only [Verif.encFields]
    refine (Sim.encFields e fs sm vs).ite ((Sim.recordSize _ _ _ _).bind fun sm => ?_)
    refine Sim.ite ((Sim.setCur _).bind fun _ => (Sim.encFlags _ _ _ _).bind fun more => ?_) (Sim.encFields e fs sm vs)
    exact Sim.ite ((Sim.encCore e t _ _).bind fun _ => Sim.encFields e fs sm vs) (Sim.encFields e fs sm vs)
termination_by structural fs => fs
theorem Sim.encNth (e : Encoding) : (fs : Fields) → (i : Nat) → (vs : List Val) → Sim (encNth e fs i vs)
  | .nil, i, vs => by simp only [Verif.encNth]; exact Sim.panic
  | .cons _ t _, 0, [] => by simp only [Verif.encNth]; exact Sim.panic
  | .cons _ t _, 0, v :: _ => by simp only [Verif.encNth]; exact Sim.encPayload e t v
  | .cons _ _ fs, i + 1, [] => by simp only [Verif.encNth]; exact Sim.panic
  | .cons _ _ fs, i + 1, _ :: vs => by simp only [Verif.encNth]; exact Sim.encNth e fs i vs
termination_by structural fs => fs
theorem Sim.encPayload (e : Encoding) : (t : Ty) → (v : Val) → Sim (encPayload e t v)
  | .ptr t, v => by
    cases v <;> simp only [Verif.encPayload] <;> try exact Sim.panic
    rename_i p
    cases p with
    | none => exact Sim.pure ()
    | some x => exact Sim.encVariant e t x
  | .struct fs, v => by
    cases v <;> simp only [Verif.encPayload] <;> try exact Sim.panic
    exact Sim.encStruct (Sim.encFields e fs _ _) fun i => Sim.encNth e fs i _
  | .lib l, v => by simp only [Verif.encPayload]; exact Sim.encLibPayload _ _ _
  | .bool, v => by simp only [Verif.encPayload]; exact Sim.scalarD (Sim.pure ())
  | .uint _ _, v => by simp only [Verif.encPayload]; exact Sim.scalarD (Sim.pure ())
  | .int _ _, v => by simp only [Verif.encPayload]; exact Sim.scalarD (Sim.pure ())
  | .borshEnum, v => by simp only [Verif.encPayload]; exact Sim.scalarD (Sim.pure ())
  | .f32, v => by simp only [Verif.encPayload]; exact Sim.scalarD (Sim.pure ())
  | .f64, v => by simp only [Verif.encPayload]; exact Sim.scalarD (Sim.pure ())
  | .str, v => by simp only [Verif.encPayload]; exact Sim.scalarD (Sim.pure ())
  | .slice _, v => by simp only [Verif.encPayload]; exact Sim.scalarD (Sim.pure ())
  | .array _ _, v => by simp only [Verif.encPayload]; exact Sim.scalarD (Sim.pure ())
  | .map _ _, v => by simp only [Verif.encPayload]; exact Sim.scalarD (Sim.pure ())
  | .iface, v => by simp only [Verif.encPayload]; exact Sim.scalarD (Sim.pure ())
  | .plainInt, v => by simp only [Verif.encPayload]; exact Sim.scalarD (Sim.pure ())
  | .plainUint, v => by simp only [Verif.encPayload]; exact Sim.scalarD (Sim.pure ())
  | .other, v => by simp only [Verif.encPayload]; exact Sim.scalarD (Sim.pure ())
termination_by structural t => t
theorem Sim.encVariant (e : Encoding) : (t : Ty) → (v : Val) → Sim (encVariant e t v)
  | .struct fs, v => by
    cases v <;> simp only [Verif.encVariant] <;> try exact Sim.panic
    exact Sim.encStruct (Sim.encFields e fs _ _) fun i => Sim.encNth e fs i _
  | .lib l, v => by simp only [Verif.encVariant]; exact Sim.encLibPayload _ _ _
  | .bool, v => by simp only [Verif.encVariant]; exact Sim.scalarD (Sim.pure ())
  | .uint _ _, v => by simp only [Verif.encVariant]; exact Sim.scalarD (Sim.pure ())
  | .int _ _, v => by simp only [Verif.encVariant]; exact Sim.scalarD (Sim.pure ())
  | .borshEnum, v => by simp only [Verif.encVariant]; exact Sim.scalarD (Sim.pure ())
  | .f32, v => by simp only [Verif.encVariant]; exact Sim.scalarD (Sim.pure ())
  | .f64, v => by simp only [Verif.encVariant]; exact Sim.scalarD (Sim.pure ())
  | .str, v => by simp only [Verif.encVariant]; exact Sim.scalarD (Sim.pure ())
  | .ptr _, v => by simp only [Verif.encVariant]; exact Sim.scalarD (Sim.pure ())
  | .slice _, v => by simp only [Verif.encVariant]; exact Sim.scalarD (Sim.pure ())
  | .array _ _, v => by simp only [Verif.encVariant]; exact Sim.scalarD (Sim.pure ())
  | .map _ _, v => by simp only [Verif.encVariant]; exact Sim.scalarD (Sim.pure ())
  | .iface, v => by simp only [Verif.encVariant]; exact Sim.scalarD (Sim.pure ())
  | .plainInt, v => by simp only [Verif.encVariant]; exact Sim.scalarD (Sim.pure ())
  | .plainUint, v => by simp only [Verif.encVariant]; exact Sim.scalarD (Sim.pure ())
  | .other, v => by simp only [Verif.encVariant]; exact Sim.scalarD (Sim.pure ())
termination_by structural t => t
end

theorem Sim.encode (t : Ty) (v : Val) : Sim (encode t v) := by
  refine Sim.get (fun s => ?_) fun _ => rfl
  exact Sim.panic.ite ((Sim.setCur _).bind fun _ => Sim.encCore _ _ _ _)

end Verif
