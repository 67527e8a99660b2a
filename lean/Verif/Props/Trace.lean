import Verif.Proofs.Trace
import Verif.Model.Interface
/-!
# C99: tracing

The logger is `zlog : List LogName`, the encoder `enc : Enc` with everything written so far in `log`.
-/
namespace Verif.Props
open Spec

/-- Without tracing nothing is different, and the logger keeps its name. -/
theorem C99_off (t : Ty) (v : Val) (s : Enc) (ns : List LogName) :
    encodeTr false t v ⟨s, ns⟩ = ((encode t v s).1, ⟨(encode t v s).2, ns⟩) := by
  rcases Shadows.encode false t v s ns with h | ⟨h, _⟩
  · exact h
  · exact absurd (Or.inl rfl) h

/-- Tracing does not change what `Encode` does in Borsh, whatever the type. -/
theorem C99_borsh_partial (tr : Bool) (t : Ty) (v : Val) (s : Enc) (ns : List LogName) (he : s.enc = .borsh) :
    encodeTr tr t v ⟨s, ns⟩ = ((encode t v s).1, ⟨(encode t v s).2, ns⟩) := by
  rcases Shadows.encode tr t v s ns with h | ⟨h, _⟩
  · exact h
  · exact absurd (Or.inr (Or.inl he)) h

/-- Nor in any encoding for types in which no map occurs, failures included. -/
theorem C99_mapless_partial (tr : Bool) (t : Ty) (v : Val) (s : Enc) (ns : List LogName) (ht : mapless t = true) :
    encodeTr tr t v ⟨s, ns⟩ = ((encode t v s).1, ⟨(encode t v s).2, ns⟩) := by
  rcases Shadows.encode tr t v s ns with h | ⟨h, _⟩
  · exact h
  · exact absurd (Or.inr (Or.inr ht)) h

/-- In all other cases tracing can only add panics: what was written up to there is the beginning of what is written without tracing. -/
theorem C99_same_or_panic (tr : Bool) (t : Ty) (v : Val) (s : Enc) (ns : List LogName) :
    encodeTr tr t v ⟨s, ns⟩ = ((encode t v s).1, ⟨(encode t v s).2, ns⟩) ∨
    ((encodeTr tr t v ⟨s, ns⟩).1 = .panic ∧ s.log <+: (encodeTr tr t v ⟨s, ns⟩).2.enc.log ∧
      (encodeTr tr t v ⟨s, ns⟩).2.enc.log <+: (encode t v s).2.log) := by
  rcases Shadows.encode tr t v s ns with h | ⟨_, s', h, h1, h2⟩
  · exact Or.inl h
  · right; rw [h]; exact ⟨rfl, h1, h2⟩

/-- The package logger has its name back after every call, panics included. -/
theorem C99_logger (tr : Bool) (t : Ty) (v : Val) (s : Enc) (ns : List LogName) : (encodeTr tr t v ⟨s, ns⟩).2.zlog = ns := by
  rcases Shadows.encode tr t v s ns with h | ⟨_, s', h, _, _⟩ <;> rw [h]

/-- Exactly which encodings get lost: if `Encode` returns without tracing, then with tracing it panics if it comes to a map, and returns the
same if it does not. -/
theorem C99_exact (t : Ty) (v : Val) (s s' : Enc) (ns : List LogName) (he : s.enc ≠ .borsh) (h : encode t v s = (.ok (), s')) :
    (meets t none v = true → (encodeTr true t v ⟨s, ns⟩).1 = .panic) ∧
    (meets t none v = false → encodeTr true t v ⟨s, ns⟩ = (.ok (), ⟨s', ns⟩)) := by
  have ho : s.enc ≠ .other := by
    intro ho
    simp [encode, M.bind_apply, ho] at h
  have h1 : encodeTr true t v ⟨s, ns⟩ = (onEnc (setCurE .le) >>= fun _ => encCoreTr true s.enc t {} v) ⟨s, ns⟩ := by
    unfold encodeTr; rw [M.bind_ok (M.get_apply _)]; simp [ho]
  have h2 : encode t v s = (setCurE .le >>= fun _ => encCore s.enc t {} v) s := by
    unfold encode; rw [M.bind_ok (M.get_apply _)]; simp [ho]
  rw [h1]
  rw [h2] at h
  have := (Fate.of (setCurE .le)).bind fun _ => Fate.encCore s.enc he t {} v
  simpa using this s ns () s' h

/-- Every map, nil and empty ones included, makes the encoder panic before the length prefix, whatever its entries are. -/
theorem C99_map (k t : Ty) (m : Option (List (Val × Val))) (s : Enc) (ns : List LogName) (he : s.enc ≠ .borsh) :
    (encodeTr true (.map k t) (.map m) ⟨s, ns⟩).1 = .panic ∧ (encodeTr true (.map k t) (.map m) ⟨s, ns⟩).2.enc.log = s.log := by
  by_cases ho : s.enc = .other
  · simp [encodeTr, M.bind_apply, ho]
  · have h1 : encodeTr true (.map k t) (.map m) ⟨s, ns⟩ = encCoreTr true s.enc (.map k t) {} (.map m) ⟨{ s with cur := some .le }, ns⟩ := by
      unfold encodeTr; rw [M.bind_ok (M.get_apply _)]; simp only [ho, if_false]
      rfl
    rw [h1]
    simp only [encCoreTr]
    have hm : onEnc (mapEntries s.enc k (m.getD [])) ⟨{ s with cur := some .le }, ns⟩ =
        (.ok (m.getD []), ⟨{ s with cur := some .le }, ns⟩) := by rw [mapEntries, if_neg he]; rfl
    have hp : mapDebug true s.enc ⟨{ s with cur := some .le }, ns⟩ = (.panic, ⟨{ s with cur := some .le }, ns⟩) := by
      simp [mapDebug, he]
    rw [M.bind_ok hm, M.bind_panic hp]
    exact ⟨rfl, rfl⟩

/-- `MarshalBin(map[string]uint8{})` and `MarshalCompactU16` of a struct with a map are fine without tracing and panic with it. -/
theorem C99_violated :
    (marshal .bin (.map .str (.uint .w8 false)) (.map (some [])) = (.ok (), [0]) ∧
      marshalT true .bin (.map .str (.uint .w8 false)) (.map (some [])) = (.panic, [])) ∧
    (let t : Ty := .struct (.cons { name := [65] } (.uint .w8 false) (.cons { name := [77] } (.map .str (.uint .w8 false)) .nil))
     let v : Val := .struct [.uint 7, .map (some [(.str [97], .uint 1)])]
     marshal .compactU16 t v = (.ok (), [7, 1, 1, 97, 1]) ∧ marshalT true .compactU16 t v = (.panic, [7])) := by
  refine ⟨⟨?_, ?_⟩, ?_, ?_⟩ <;> decide +kernel

/-- The same struct in Borsh, and with an absent optional map in Bin: no difference. -/
example :
    (let t : Ty := .struct (.cons { name := [65] } (.uint .w8 false) (.cons { name := [77] } (.map .str (.uint .w8 false)) .nil))
     let v : Val := .struct [.uint 7, .map (some [(.str [97], .uint 1)])]
     marshalT true .borsh t v = (.ok (), [7, 1, 0, 0, 0, 1, 0, 0, 0, 97, 1])) ∧
    (let t : Ty := .struct (.cons { name := [77], tag := { option := true } } (.map .str (.uint .w8 false)) .nil)
     let v : Val := .struct [.map none]
     meets t none v = false ∧ mapless t = false ∧ marshal .bin t v = (.ok (), [0, 0, 0, 0]) ∧ marshalT true .bin t v = (.ok (), [0, 0, 0, 0])) := by
  refine ⟨?_, ?_, ?_, ?_, ?_⟩ <;> decide +kernel

/-- A map in the second element of a slice: the bytes before it are written. -/
example :
    let t : Ty := .slice (.ptr (.map .str (.uint .w8 false)))
    let v : Val := .seq (some [.ptr none, .ptr (some (.map none))])
    meets t none v = true ∧ marshal .bin t v = (.ok (), [2, 0]) ∧ marshalT true .bin t v = (.panic, [2]) := by
  refine ⟨?_, ?_, ?_⟩ <;> decide +kernel

/-- `zlog` is renamed on the way: inside a slice of arrays the name has two more parts. -/
example (m : M Traced Unit) (s : Enc) (h : m ⟨s, [.slice, .array]⟩ = (.ok (), ⟨s, [.slice, .array]⟩)) :
    named true .slice (named true .array m) ⟨s, []⟩ = (.ok (), ⟨s, []⟩) := by
  simp [named, h]

end Verif.Props
