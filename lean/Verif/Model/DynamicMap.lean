import Verif.Model.Dynamic
/-!
# Maps and slices of `interface{}` values, nested

Values of the types `map[K]interface{}` and `[]interface{}` whose interfaces may hold such maps and slices again, or values of the
types of the main model.  Unlike the elements of a slice, the values of a map go through `Encode` (encoder_bin.go:185,
encoder_compact-u16.go:183, encoder_borsh.go:233), which takes what the interface holds.  Keys have one of the types of the main
model; maps with keys of interface type are not modelled.  Decoding into a `map[K]interface{}` is `decCore` of the type `map K iface`:
the interfaces decoded into are new, hence nil (decoder_bin.go:236-241, decoder_compact-u16.go:235-240, decoder_borsh.go:275-280).
-/
namespace Verif

/-- What an `interface{}` holds. -/
inductive Dyn where
  /-- Nothing. -/
  | nil
  /-- A value of one of the types of the main model. -/
  | held (t : Ty) (v : Val)
  /-- A `[]interface{}`. -/
  | slice (xs : List Dyn)
  /-- A `map[k]interface{}`: its entries in the order in which `MapKeys` lists them. -/
  | map (k : Ty) (m : List (Val × Dyn))

/-- An element of a `[]interface{}`: only the methods of the library types are found, everything else is skipped (`encSlot`). -/
def Dyn.slot : Dyn → Slot
  | .held t v => some (t, v)
  | _ => none

/-- `sort.Slice(keys, vComp(keys))` (encoder_borsh.go:211), as `insertSorted`, with what belongs to the keys. -/
def insertKeyed {α : Type} (k : Kind) (x : Val × α) : List (Val × α) → List (Val × α)
  | [] => [x]
  | y :: ys => if keyLt k y.1 x.1 then y :: insertKeyed k x ys else x :: y :: ys

def sortKeyed {α : Type} (k : Kind) : List (Val × α) → List (Val × α)
  | [] => []
  | x :: xs => insertKeyed k x (sortKeyed k xs)

/-- The entries in the order they are written, as `mapEntries` (encoder_borsh.go:210-211, encoder_bin.go:164). -/
def keyedEntries {α : Type} (e : Encoding) (k : Ty) (m : List (Val × α)) : EM (List (Val × α)) :=
  if e = .borsh then
    if m.length < 2 then pure m
    else if k.sortable then pure (sortKeyed k.kind m)
    else M.panic
  else pure m

/-- The entries of a map: `e.Encode(mapKey.Interface())`, then `e.Encode(rv.MapIndex(mapKey).Interface())`, which is `val` here
(encoder_bin.go:180-188, encoder_compact-u16.go:178-186, encoder_borsh.go:228-236).  A key that is not found gives the zero
`reflect.Value`, and `Interface` panics. -/
def encKeyed (e : Encoding) (k : Ty) (m : List (Val × EM Unit)) : EM Unit := do
  let m ← keyedEntries e k m
  writeSeqLen e m.length
  forEachM (fun x => do
    setCurE .le
    encCore e k {} x.1
    if k.found x.1 then x.2 else M.panic) m

mutual
/-- `encodeBin`, `encodeCompactU16`, `encodeBorsh` for `reflect.ValueOf(x)` of what `Encode(x)` is given.  For a nil interface this is
the zero `reflect.Value`, for which nothing is written (encoder_bin.go:56-58, encoder_compact-u16.go:55-57, encoder_borsh.go:110-112). -/
def encDyn (e : Encoding) : Dyn → EM Unit
  | .nil => setCurE .le
  | .held t v => do
    setCurE .le
    encCore e t {} v
  | .slice xs => do
    setCurE .le
    writeSeqLen e xs.length
    forEachM (fun x => do setCurE .le; encSlot x) (xs.map Dyn.slot)
  | .map k m => do
    setCurE .le
    encKeyed e k (encDyns e m)
/-- What `Encode` does for the values of a map. -/
def encDyns (e : Encoding) : List (Val × Dyn) → List (Val × EM Unit)
  | [] => []
  | (x, d) :: m => (x, encDyn e d) :: encDyns e m
end

/-- `Encode(x)` (encoder.go:68-86). -/
def encodeDyn (x : Dyn) : EM Unit := do
  let st ← M.get
  if st.enc = .other then M.panic else encDyn st.enc x

/-- `MarshalBin(x)`, `MarshalCompactU16(x)`, `MarshalBorsh(x)` (interface.go:39-58). -/
def marshalDyn (e : Encoding) (x : Dyn) : Res Unit × Bytes :=
  ((encodeDyn x (Enc.new e)).1, (encodeDyn x (Enc.new e)).2.out)

end Verif
