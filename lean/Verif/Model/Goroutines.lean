import Verif.Model.Trace
/-!
# Encoders in several goroutines while tracing is on

The only package variable that the library assigns to after `init` is `zlog` (logging.go:27), in the encoders and while tracing is on.  Here are
the encoders of `Model/Trace` once more; instead of a value of `zlog` they keep a list of what they do to it, since in several goroutines the value may
change between any two of these steps.  What they read from `zlog` they only store back or log.

A load and a store of the variable `zlog` are taken to be indivisible (it is one pointer; to Go the program has a data race).
-/
namespace Verif

/-- The two places at which an encoder assigns to `zlog`. -/
inductive LogEvent where
  /-- `defer func(prev *zap.Logger) { zlog = prev }(zlog); zlog = zlog.Named(n)` -/
  | enter (n : LogName)
  /-- the deferred `zlog = prev` -/
  | leave
  deriving DecidableEq, Repr

/-- An encoder and what it has done to `zlog`. -/
structure Logged where
  enc : Enc
  events : List LogEvent

/-- A call that does not touch `zlog`. -/
def onEncL {α : Type} (m : EM α) : M Logged α := fun s => ((m s.enc).1, { s with enc := (m s.enc).2 })

/-- As `named`: the renaming at the start of an array, a slice or a map, and the deferred function at its end, also when `m` panics
(encoder_bin.go:104-108, 137-141, encoder_borsh.go:150-154, 182-186, 219-222, encoder_compact-u16.go:103-107, 135-139, 169-172). -/
def namedL {α : Type} (trace : Bool) (n : LogName) (m : M Logged α) : M Logged α := fun s =>
  if trace then
    ((m { s with events := s.events ++ [.enter n] }).1,
      { (m { s with events := s.events ++ [.enter n] }).2 with events := (m { s with events := s.events ++ [.enter n] }).2.events ++ [.leave] })
  else m s

/-- As `mapDebug` (encoder_bin.go:170, encoder_compact-u16.go:168, encoder_borsh.go:218). -/
def mapDebugL (trace : Bool) (e : Encoding) : M Logged Unit :=
  if trace = true ∧ e ≠ .borsh then M.panic else pure ()

/-- `encodeStructBorsh` up to the field loop and `encodeComplexEnumBorsh` (encoder_borsh.go:249-261, 296-305): as `encStructTr`. -/
def encStructL (e : Encoding) (fs : Fields) (vs : List Val) (fields : M Logged Unit) (nth : Nat → M Logged Unit) :
    M Logged Unit :=
  if e = .borsh ∧ fs.isEnum then
    match vs with
    | .uint n :: _ => do
      onEncL (writeByte (UInt8.ofNat n))
      if n + 1 ≥ fs.length then M.err .enumTooLarge else nth (n + 1)
    | _ => M.panic
  else fields

mutual
/-- `encodeBin` (encoder_bin.go:56-193), `encodeCompactU16` (encoder_compact-u16.go:55-191), `encodeBorsh` (encoder_borsh.go:108-246): as
`encCoreTr`. -/
def encCoreL (trace : Bool) (e : Encoding) : Ty → Opt → Val → M Logged Unit
  | .lib l, _, v => onEncL (marshalLib l v)
  | .ptr t, o, .ptr p =>
    match t.asLib with
    | some l =>
      match p with
      | some x => onEncL (marshalLib l x)
      | none => if e = .borsh ∨ l = .emptyVariant then pure () else M.panic
    | none =>
      if e = .borsh then do
        onEncL (setCurE .le)
        encCoreL trace e t {} (p.getD t.zero)
      else do
        onEncL (setCurE o.order)
        match p with
        | none => pure ()
        | some x => encCoreL trace e t o x
  | .slice t, o, .seq xs => do
    -- the logger is renamed behind the length prefix (encoder_bin.go:132-141, encoder_borsh.go:177-186)
    let l : Int ←
      match o.sizeOf with
      | some s => pure s
      | none => do
        onEncL (writeSeqLen e (xs.getD []).length)
        pure ((xs.getD []).length : Int)
    namedL trace .slice <|
      match t.uintKind with
      | some w => onEncL (writeUints l w (xs.getD []))
      | none => forIndexM (fun x => do onEncL (setCurE .le); encCoreL trace e t {} x) l.toNat (xs.getD [])
  | .array n t, _, .arr xs =>
    namedL trace .array <|
      match t.uintKind with
      | some w => onEncL (writeUints n w xs)
      | none => forIndexM (fun x => do onEncL (setCurE .le); encCoreL trace e t {} x) n xs
  | .map k t, _, .map m => do
    let m ← onEncL (mapEntries e k (m.getD []))
    mapDebugL trace e
    namedL trace .struct do
      onEncL (writeSeqLen e m.length)
      forEachM (fun x => do
        onEncL (setCurE .le)
        encCoreL trace e k {} x.1
        if k.found x.1 then do
          onEncL (setCurE .le)
          encCoreL trace e t {} x.2
        else M.panic) m
  | .struct fs, _, .struct vs => encStructL e fs vs (encFieldsL trace e fs [] vs) (fun i => encNthL trace e fs i vs)
  | .iface, _, .nil => pure ()
  | .bool, o, v => onEncL (encPlain e .bool o v)
  | .uint w _, o, v => onEncL (encPlain e (.uint w) o v)
  | .int w _, o, v => onEncL (encPlain e (.int w) o v)
  | .borshEnum, o, v => onEncL (encPlain e (.uint .w8) o v)
  | .f32, o, v => onEncL (encPlain e .f32 o v)
  | .f64, o, v => onEncL (encPlain e .f64 o v)
  | .str, o, v => onEncL (encPlain e .string o v)
  | .plainInt, _, _ => M.err .unsupported
  | .plainUint, _, _ => M.err .unsupported
  | .other, _, _ => M.err .unsupported
  | _, _, _ => M.panic
/-- `encodeStructBin` (encoder_bin.go:196-265), `encodeStructCompactU16` (encoder_compact-u16.go:194-263), the field loop of
`encodeStructBorsh` (encoder_borsh.go:307-369): as `encFieldsTr`. -/
def encFieldsL (trace : Bool) (e : Encoding) : Fields → List (Bytes × Int) → List Val → M Logged Unit
  | .nil, _, _ => pure ()
  | .cons _ _ _, _, [] => M.panic
  | .cons m t fs, sm, v :: vs =>
    if m.tag.skip then encFieldsL trace e fs sm vs
    else do
      let sm ← recordSize m t v sm
      if m.exported then do
        onEncL (setCurE m.tag.order)
        let more ← onEncL (encFlags e t (fieldOpt m sm) v)
        if more then encCoreL trace e t (fieldOpt m sm) v else pure ()
        encFieldsL trace e fs sm vs
      else encFieldsL trace e fs sm vs
/-- encoder_borsh.go:261-273: as `encNthTr`. -/
def encNthL (trace : Bool) (e : Encoding) : Fields → Nat → List Val → M Logged Unit
  | .cons _ t _, 0, v :: _ => encPayloadL trace e t v
  | .cons _ _ fs, i + 1, _ :: vs => encNthL trace e fs i vs
  | _, _, _ => M.panic
/-- encoder_borsh.go:262-273: as `encPayloadTr`. -/
def encPayloadL (trace : Bool) (e : Encoding) : Ty → Val → M Logged Unit
  | .ptr t, .ptr p =>
    match p with
    | none => pure ()
    | some x => encVariantL trace e t x
  | .ptr _, _ => M.panic
  | .struct fs, .struct vs => encStructL e fs vs (encFieldsL trace e fs [] vs) (fun i => encNthL trace e fs i vs)
  | .struct _, _ => M.panic
  | .lib l, v => onEncL (encLibPayload e l v)
  | t, v => onEncL ((encScalar e t.kind .le v).getD (pure ()))
/-- encoder_borsh.go:265-273: as `encVariantTr`. -/
def encVariantL (trace : Bool) (e : Encoding) : Ty → Val → M Logged Unit
  | .struct fs, .struct vs => encStructL e fs vs (encFieldsL trace e fs [] vs) (fun i => encNthL trace e fs i vs)
  | .struct _, _ => M.panic
  | .lib l, v => onEncL (encLibPayload e l v)
  | t, v => onEncL ((encScalar e t.kind .le v).getD (pure ()))
end

/-- `Encode` (encoder.go:75-86). -/
def encodeL (trace : Bool) (t : Ty) (v : Val) : M Logged Unit := do
  let s ← M.get
  if s.enc.enc = .other then M.panic
  else do
    onEncL (setCurE .le)
    encCoreL trace s.enc.enc t {} v

/-! ### goroutines -/

/-- One access to `zlog`. -/
inductive LogOp where
  /-- the argument of the deferred function is loaded -/
  | loadPrev
  /-- the receiver of `Named` is loaded -/
  | loadCur
  /-- what `Named(n)` returned is stored -/
  | store (n : LogName)
  /-- the deferred function stores its argument -/
  | restore
  deriving DecidableEq, Repr

/-- The accesses in their order. -/
def LogEvent.ops : LogEvent → List LogOp
  | .enter n => [.loadPrev, .loadCur, .store n]
  | .leave => [.restore]

/-- A goroutine in an encoder: what it has still to do to `zlog`, the arguments of its deferred functions (the latest first), and the receiver it
has loaded for `Named`. -/
structure Goroutine where
  todo : List LogOp
  prevs : List (List LogName) := []
  cur : List LogName := []
  deriving DecidableEq

/-- A goroutine about to do `es`. -/
def Goroutine.new (es : List LogEvent) : Goroutine := { todo := es.flatMap LogEvent.ops }

/-- The next access of a goroutine, with `z` in `zlog`. -/
def Goroutine.step (g : Goroutine) (z : List LogName) : Goroutine × List LogName :=
  match g.todo with
  | [] => (g, z)
  | .loadPrev :: r => ({ g with todo := r, prevs := z :: g.prevs }, z)
  | .loadCur :: r => ({ g with todo := r, cur := z }, z)
  | .store n :: r => ({ g with todo := r }, g.cur ++ [n])
  | .restore :: r =>
    match g.prevs with
    | [] => ({ g with todo := r }, z)
    | p :: ps => ({ g with todo := r, prevs := ps }, p)

/-- A schedule says which goroutine makes the next access. -/
def runSchedule : List Nat → List Goroutine → List LogName → List Goroutine × List LogName
  | [], gs, z => (gs, z)
  | i :: sched, gs, z =>
    match gs[i]? with
    | none => runSchedule sched gs z
    | some g => runSchedule sched (gs.set i (g.step z).1) (g.step z).2

/-- A goroutine that calls `Encode` once on an encoder in the state `s`. -/
def encodeGo (trace : Bool) (t : Ty) (v : Val) (s : Enc) : Goroutine := .new (encodeL trace t v ⟨s, []⟩).2.events

end Verif
