import Verif.Proofs.Pared
import Verif.Model.Interface
/-!
# C117: Tags that have no effect
-/
namespace Verif.Props
open Spec

/-- Encoding does the same without the tags that `Spec.pared` removes, for every value and in every state of an encoder for `e`. -/
theorem C117_encode {e : Encoding} (t : Ty) (v : Val) (s : Enc) (hs : s.enc = e) : encode (pared e t) v s = encode t v s := by
  subst hs
  simp only [encode, bind, M.bind, M.get]
  split
  · rfl
  · simp only [pared_encCore]

/-- So does decoding, for every input and every value that was there before. -/
theorem C117_decode {e : Encoding} (t : Ty) (old : Val) (d : Dec) (hd : d.enc = e) : decode (pared e t) old d = decode t old d := by
  subst hd
  simp only [decode, bind, M.bind, M.get]
  split
  · rfl
  · simp only [pared_decCore]

/-- Two declarations that differ only in such tags have one format: the same bytes, the same values read, the same failures. -/
theorem C117_same {e : Encoding} (t u : Ty) (h : pared e t = pared e u) (v : Val) (b : Bytes) :
    marshal e t v = marshal e u v ∧ unmarshal e t t.zero b = unmarshal e u u.zero b := by
  have hz : t.zero = u.zero := by rw [← pared_zero e t, h, pared_zero]
  constructor
  · simp only [marshal]
    rw [← C117_encode (e := e) t v (Enc.new e) rfl, h, C117_encode (e := e) u v (Enc.new e) rfl]
  · simp only [unmarshal]
    rw [← C117_decode (e := e) t _ (Dec.new b e) rfl, h, C117_decode (e := e) u _ (Dec.new b e) rfl, hz]

/-- `struct { A uint8 }` with this tag. -/
def taggedTy (g : FieldTag) : Ty := .struct (.cons { name := [65], tag := g } (.uint .w8 false) .nil)

example : pared .bin (taggedTy { coption := true, isEnum := true }) = taggedTy {} := rfl
example : pared .borsh (taggedTy { coption := true, isEnum := true }) = taggedTy { coption := true } := rfl
example : pared .borsh (taggedTy { skip := true, option := true, binExt := true, sizeOf := [66] }) = taggedTy { skip := true } := rfl

/-- `coption` is silently dropped outside Borsh: no presence flag is written, zero or not. -/
theorem C117_coption {e : Encoding} (he : e ≠ .borsh) (g : FieldTag) (v : Val) :
    marshal e (taggedTy { g with coption := true }) v = marshal e (taggedTy { g with coption := false }) v := by
  refine (C117_same _ _ ?_ v []).1
  have : (e == Encoding.borsh) = false := by simpa using he
  simp [taggedTy, pared, paredFields, paredTag, he, this]

/-- In Borsh it does have an effect. -/
theorem C117_coption_borsh :
    marshal .borsh (taggedTy { coption := true }) (.struct [.uint 5]) = (.ok (), [1, 0, 0, 0, 5]) ∧
    marshal .borsh (taggedTy {}) (.struct [.uint 5]) = (.ok (), [5]) ∧
    marshal .bin (taggedTy { coption := true }) (.struct [.uint 5]) = (.ok (), [5]) := by decide +kernel

/-- A Borsh enum whose variants are tagged with `g`. -/
def taggedEnum (g : FieldTag) : Ty :=
  .struct (.cons { name := [69], tag := { isEnum := true } } .borshEnum (.cons { name := [65], tag := g } (.uint .w16 false) .nil))

/-- The tags of the variants of a Borsh enum have no effect at all, not even `skip`, `optional` or `big`. -/
theorem C117_variants (g : FieldTag) (v : Val) (b : Bytes) :
    marshal .borsh (taggedEnum g) v = marshal .borsh (taggedEnum {}) v ∧
    unmarshal .borsh (taggedEnum g) (taggedEnum g).zero b = unmarshal .borsh (taggedEnum {}) (taggedEnum {}).zero b :=
  C117_same (taggedEnum g) (taggedEnum {}) rfl v b

example : marshal .borsh (taggedEnum { skip := true, option := true, order := .be }) (.struct [.uint 0, .uint 258]) =
    (.ok (), [0, 2, 1]) := by decide +kernel

/-- Outside Borsh the same struct is a plain one, and its tags count. -/
theorem C117_variants_bin :
    marshal .bin (taggedEnum {}) (.struct [.uint 0, .uint 258]) = (.ok (), [0, 2, 1]) ∧
    marshal .bin (taggedEnum { order := .be }) (.struct [.uint 0, .uint 258]) = (.ok (), [0, 1, 2]) ∧
    marshal .bin (taggedEnum { skip := true }) (.struct [.uint 0, .uint 258]) = (.ok (), [0]) := by decide +kernel

end Verif.Props
