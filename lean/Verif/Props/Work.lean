import Verif.Proofs.Takes
import Verif.Proofs.Pays
import Verif.Proofs.DecodeWire
import Verif.Model.Interface
/-!
# C92 — The work and the memory of decoding are bounded by the input

`decodeWork` (`Model/Work`) counts calls, loop rounds and bytes; `cells` (`Spec/Work`) counts the parts of the value stored.
-/
namespace Verif.Props
open Verif Verif.Spec

theorem new_ok (b : Bytes) (e : Encoding) : (Dec.new b e).Ok := ⟨by simp [Dec.new], by simp [Dec.new]⟩

theorem new_rest (b : Bytes) (e : Encoding) : (Dec.new b e).rest = b := by simp [Dec.new, Dec.rest]

/-- What is missing: types in which slice elements or map entries may take no bytes (`C92_violated`, `C92_violated_nested`).
For all other types, decoding any input into a new variable does at most `weight t` units of work for every byte of it, and
`weight t` more, whether or not it succeeds. -/
theorem C92_work_partial (e : Encoding) (he : e.valid = true) (t : Ty) (ht : Feeds e t) (b : Bytes) :
    decodeWork e t b ≤ weight t * (b.length + 1) := by
  obtain ⟨-, -, -, -, -, h, -⟩ := costs_core he t {} ht { Dec.new b e with cur := some .le } (new_ok b e) rfl
  have hr : ({ Dec.new b e with cur := some .le } : Dec).rest = b := new_rest b e
  rw [hr] at h
  exact h

/-- And what a successful decode leaves in the variable is no larger than the bytes it took account for (also in the middle of
other data): at most `weight t` for each of them, or `weight t` if it took none. -/
theorem C92_memory_partial (e : Encoding) (he : e.valid = true) (t : Ty) (ht : Feeds e t) (d d' : Dec) (h0 : 0 ≤ d.pos)
    (h1 : d.pos ≤ d.data.length) (hd : d.enc = e) (v : Val) (h : decode t t.zero d = (.ok v, d')) :
    ∃ k : Nat, d'.pos = d.pos + k ∧ d'.pos ≤ d.data.length ∧ cells v ≤ weight t * max 1 k := by
  unfold decode at h
  rw [M.bind_apply, M.get_apply] at h
  simp only [] at h
  rw [if_neg (by rw [hd]; intro h0; rw [h0] at he; cases he), hd] at h
  obtain ⟨res, k, c, hr, hk, -, hq⟩ := (costs_core he t {} ht).set (o := .le) d ⟨h0, h1⟩ hd
  rw [hr] at h
  cases h
  have := d.rest_length ⟨h0, h1⟩
  refine ⟨k, by simp [Dec.to, Dec.adv], ?_, (hq v rfl).2⟩
  simp only [Dec.remaining] at this
  simp only [Dec.to, Dec.adv]
  omega

/-- For the `Unmarshal` functions. -/
theorem C92_unmarshal_partial (e : Encoding) (he : e.valid = true) (t : Ty) (ht : Feeds e t) (b : Bytes) (v : Val)
    (h : unmarshal e t t.zero b = .ok v) : cells v ≤ weight t * (b.length + 1) := by
  cases hd : decode t t.zero (Dec.new b e) with
  | mk res d' =>
    have hr : res = .ok v := by rw [← h, unmarshal, hd]
    subst hr
    obtain ⟨k, h1, h2, h3⟩ := C92_memory_partial e he t ht (Dec.new b e) d' (new_ok b e).1 (new_ok b e).2 rfl v hd
    refine Nat.le_trans h3 (Nat.mul_le_mul_left _ ?_)
    have : (Dec.new b e).pos = 0 := rfl
    have : (Dec.new b e).data = b := rfl
    rw [this] at h2
    omega

/-- The measure counts everything: for every type, also those excluded above, a successful decode takes at most ten bytes and
stores at most `weight t` parts for each unit of work. -/
theorem C92_counted_partial (e : Encoding) (he : e.valid = true) (t : Ty) (b : Bytes) (v : Val) (d' : Dec)
    (h : decode t t.zero (Dec.new b e) = (.ok v, d')) :
    d'.pos ≤ (10 * decodeWork e t b : Nat) ∧ cells v ≤ weight t * decodeWork e t b := by
  unfold decode at h
  rw [M.bind_apply, M.get_apply] at h
  simp only [] at h
  rw [if_neg (by intro h0; rw [show (Dec.new b e).enc = e from rfl] at h0; rw [h0] at he; cases he)] at h
  obtain ⟨-, -, h1, h2⟩ := (core_pays he t {}).set (o := .le) (Dec.new b e) v d' (new_ok b e) rfl h
  have h1 : d'.pos ≤ (Dec.new b e).pos + ((0 + 10 * decodeWork e t b : Nat) : Int) := h1
  have h2 : cells v ≤ 0 + weight t * decodeWork e t b := h2
  have h0 : (Dec.new b e).pos = 0 := rfl
  constructor <;> omega

/-- A type takes at least one byte if its declaration says so. -/
theorem C92_takes_partial (e : Encoding) (he : e.valid = true) (t : Ty) (h : takes e t false = true) : Takes e t := takes_sound he h

mutual
/-- The condition of the theorems above can be read off the declaration. -/
theorem C92_declared_partial (e : Encoding) (he : e.valid = true) : (t : Ty) → feeds e t = true → Feeds e t
  | .ptr t, h => by simp only [feeds, Feeds] at h ⊢; exact C92_declared_partial e he t h
  | .slice t, h => by
    simp only [feeds, Feeds, Bool.and_eq_true] at h ⊢
    exact ⟨takes_sound he h.1, C92_declared_partial e he t h.2⟩
  | .array _ t, h => by simp only [feeds, Feeds] at h ⊢; exact C92_declared_partial e he t h
  | .map k t, h => by
    simp only [feeds, Feeds, Bool.and_eq_true, Bool.or_eq_true] at h ⊢
    exact ⟨h.1.1.imp (takes_sound he) (takes_sound he), C92_declared_partial e he k h.1.2, C92_declared_partial e he t h.2⟩
  | .struct fs, h => by simp only [feeds, Feeds] at h ⊢; exact declaredAll e he fs h
  | .lib _, _ | .iface, _ | .bool, _ | .uint _ _, _ | .int _ _, _ | .borshEnum, _ | .f32, _ | .f64, _ | .str, _
  | .plainInt, _ | .plainUint, _ | .other, _ => by simp only [Feeds]
theorem declaredAll (e : Encoding) (he : e.valid = true) : (fs : Fields) → feedsAll e fs = true → FeedsAll e fs
  | .nil, _ => by simp only [FeedsAll]
  | .cons _ t fs, h => by
    simp only [feedsAll, FeedsAll, Bool.and_eq_true] at h ⊢
    exact ⟨C92_declared_partial e he t h.1, declaredAll e he fs h.2⟩
end

/-! ### types that are not covered -/

/-- `struct{}` -/
def unit : Ty := .struct .nil

theorem unit_decodes (e : Encoding) (d : Dec) :
    (setCurD .le >>= fun _ => decCore e unit {} unit.zero : DM Val) d = (.ok (.struct []), { d with cur := some .le }) := by
  unfold unit decCore decStruct
  rw [if_neg (by simp [Fields.isEnum])]
  rfl

theorem unit_work (e : Encoding) (d : Dec) : workCore e unit {} unit.zero d = 1 := by
  unfold unit workCore
  rw [if_neg (by simp [Fields.isEnum])]
  rfl

theorem times_steady {α : Type} {m : DM α} {w : Dec → Nat} {a : α} {f : Dec → Dec} {c : Nat} (hm : ∀ d, m d = (.ok a, f d))
    (hw : ∀ d, w d = c) : ∀ (n : Nat) (d : Dec), workTimes m w n d = n * c
  | 0, d => by simp [workTimes]
  | n + 1, d => by
    simp only [workTimes, after, hm, hw, times_steady hm hw n]
    rw [Nat.succ_mul]; omega

theorem repeat_steady {α : Type} {m : DM α} {a : α} {o : Order} (hm : ∀ d, m d = (.ok a, { d with cur := some o })) :
    ∀ (n : Nat) (d : Dec), ∃ c, repeatM m n d = (.ok (List.replicate n a), { d with cur := c })
  | 0, d => ⟨d.cur, rfl⟩
  | n + 1, d => by
    obtain ⟨c, h⟩ := repeat_steady hm n { d with cur := some o }
    refine ⟨c, ?_⟩
    unfold repeatM
    rw [M.bind_ok (hm d), M.bind_ok h]
    rfl

theorem entries_fold : ∀ n : Nat, (List.replicate n (Val.struct [], Val.struct [])).foldl (fun m x => setEntry unit x m)
    [(Val.struct [], Val.struct [])] = [(Val.struct [], Val.struct [])]
  | 0 => rfl
  | n + 1 => by
    rw [List.replicate_succ, List.foldl_cons]
    exact entries_fold n

/-- Nothing but a length prefix of up to five bytes makes the decoder go through any number of entries the prefix can
announce, up to `2^31 - 1`, all of which are the same entry.  (decoder_bin.go:221-243, decoder_borsh.go:260-283 and
decoder_compact-u16.go:220-242 do not compare the announced length with the bytes that are left, as they do for slices.) -/
theorem C92_violated_entries (e : Encoding) (he : e.valid = true) (l : Nat) (h0 : 0 < l) (hl : l ≤ readMax e) :
    decodeWork e (.map unit unit) (lenPrefix e l) = 1 + 2 * l ∧
    unmarshal e (.map unit unit) (.map none) (lenPrefix e l) = .ok (.map (some [(.struct [], .struct [])])) := by
  have pair : ∀ d : Dec, (do
      setCurD .le
      let x ← decCore e unit {} unit.zero
      setCurD .le
      let y ← decCore e unit {} unit.zero
      pure (x, y) : DM (Val × Val)) d = (.ok (.struct [], .struct []), { d with cur := some .le }) := by
    intro d
    have h1 := unit_decodes e d
    have h2 := unit_decodes e { d with cur := some .le }
    show ((setCurD .le >>= fun _ => decCore e unit {} unit.zero) >>= fun x =>
      (setCurD .le >>= fun _ => decCore e unit {} unit.zero) >>= fun y => pure (x, y) : DM (Val × Val)) d = _
    rw [M.bind_ok h1, M.bind_ok h2]
    rfl
  have hlen : ∀ c, readSeqLen e { Dec.new (lenPrefix e l) e with cur := c } =
      (.ok l, ({ Dec.new (lenPrefix e l) e with cur := c } : Dec).adv (lenPrefix e l).length) := fun c =>
    readSeqLen_r he l hl { Dec.new (lenPrefix e l) e with cur := c } [] rfl (new_ok (lenPrefix e l) e) (by rw [List.append_nil]; exact new_rest (lenPrefix e l) e)
  constructor
  · unfold decodeWork workCore
    simp only [after, hlen]
    rw [times_steady (c := 2) pair]
    · omega
    · intro d
      have := unit_decodes e d
      simp only [after, this, unit_work]
  · unfold unmarshal decode
    rw [M.bind_apply, M.get_apply]
    simp only []
    rw [if_neg (by show e ≠ _; intro h0; rw [h0] at he; cases he)]
    show ((setCurD .le >>= fun _ => decCore e (.map unit unit) {} (.map none) : DM Val) (Dec.new (lenPrefix e l) e)).1 = _
    show (decCore e (.map unit unit) {} (.map none) { Dec.new (lenPrefix e l) e with cur := some .le }).1 = _
    unfold decCore
    rw [M.bind_ok (hlen (some .le)), if_neg (by omega)]
    obtain ⟨c, hr⟩ := repeat_steady pair l (({ Dec.new (lenPrefix e l) e with cur := some .le } : Dec).adv (lenPrefix e l).length)
    rw [M.bind_ok hr]
    cases l with
    | zero => omega
    | succ l =>
      rw [List.replicate_succ, List.foldl_cons]
      have := entries_fold l
      show Res.ok (Val.map (some (List.foldl (fun m x => setEntry unit x m) [(Val.struct [], Val.struct [])] _))) = _
      rw [this]

/-- C92 is false of the code: four bytes, and more than four billion units of work. -/
theorem C92_violated : decodeWork .borsh (.map unit unit) [0xff, 0xff, 0xff, 0x7f] = 4294967295 ∧ weight (.map unit unit) = 5 := by
  refine ⟨?_, rfl⟩
  have := (C92_violated_entries .borsh rfl (2 ^ 31 - 1) (by decide) (by decide)).1
  exact this

theorem slice_step (e : Encoding) (he : e.valid = true) (m : Nat) (h0 : 0 < m) (hm : m ≤ readMax e) (d : Dec) (ho : d.Ok) (hd : d.enc = e)
    (tail : Bytes) (hr : d.rest = lenPrefix e m ++ tail) (ht : m ≤ tail.length) :
    workCore e (.slice unit) {} (.seq none) d = 1 + m ∧
    ∃ v c, decCore e (.slice unit) {} (.seq none) d = (.ok v, { d.adv (lenPrefix e m).length with cur := c }) := by
  have hlen : readSeqLen e d = (.ok m, d.adv (lenPrefix e m).length) := readSeqLen_r he m hm d tail hd ho hr
  have hrest := Dec.adv_rest (k := (lenPrefix e m).length) ho
  rw [hr, List.drop_left] at hrest
  have hrem : ¬ ((m : Int) > (d.adv (lenPrefix e m).length).remaining) := by
    have := (d.adv (lenPrefix e m).length).rest_length (Dec.adv_ok ho (by rw [hr]; simp))
    rw [hrest] at this
    omega
  constructor
  · unfold workCore sliceLen
    simp only [after, M.bind_ok hlen]
    rw [M.pure_apply]
    simp only []
    rw [if_neg (by omega), if_neg hrem]
    have : unit.uintKind = none := rfl
    simp only [this]
    rw [times_steady (c := 1) (unit_decodes e) fun d => unit_work e _]
    simp
  · unfold decCore
    simp only []
    show ∃ v c, (readSeqLen e >>= fun n : Nat => _ : DM Val) d = _
    rw [M.bind_ok hlen, M.bind_apply, M.pure_apply]
    simp only []
    rw [if_neg (by omega), M.bind_apply, M.get_apply]
    simp only []
    rw [if_neg hrem]
    have : unit.uintKind = none := rfl
    simp only [this]
    obtain ⟨c, h⟩ := repeat_steady (unit_decodes e) m (d.adv (lenPrefix e m).length)
    rw [show ((m : Int).toNat) = m from rfl, M.bind_ok h]
    exact ⟨_, c, rfl⟩

theorem slices_work (e : Encoding) (he : e.valid = true) (m : Nat) (h0 : 0 < m) (hm : m ≤ readMax e) (tail : Bytes) (ht : m ≤ tail.length) :
    ∀ (k : Nat) (d : Dec), d.Ok → d.enc = e → d.rest = (List.replicate k (lenPrefix e m)).flatten ++ tail →
      workTimes (do setCurD .le; decCore e (.slice unit) {} (.seq none))
        (fun d => workCore e (.slice unit) {} (.seq none) { d with cur := some .le }) k d = k * (1 + m)
  | 0, d, _, _, _ => by simp [workTimes]
  | k + 1, d, ho, hd, hr => by
    rw [List.replicate_succ, List.flatten_cons, List.append_assoc] at hr
    obtain ⟨h1, v, c, h2⟩ := slice_step e he m h0 hm { d with cur := some .le } ho hd _ hr (by simp; omega)
    have h3 : (do setCurD .le; decCore e (.slice unit) {} (.seq none) : DM Val) d =
        (.ok v, { ({ d with cur := some .le } : Dec).adv (lenPrefix e m).length with cur := c }) := h2
    simp only [workTimes, after, h1, h3]
    rw [slices_work e he m h0 hm tail ht k]
    · rw [Nat.succ_mul]; omega
    · exact Dec.adv_ok (d := { d with cur := some .le }) ho (by show _ ≤ d.rest.length; rw [hr]; simp)
    · exact hd
    · have := Dec.adv_rest (d := { d with cur := some .le }) (k := (lenPrefix e m).length) ho
      show (({ d with cur := some .le } : Dec).adv (lenPrefix e m).length).rest = _
      rw [this]
      show d.rest.drop _ = _
      rw [hr, List.drop_left]

theorem lenPrefix_short (e : Encoding) (he : e.valid = true) (n : Nat) (h : n ≤ readMax e) : (lenPrefix e n).length ≤ 5 := by
  have hb := Nat.lt_of_le_of_lt h (Nat.lt_succ_self _)
  cases e with
  | bin =>
    have hb : n < 2 ^ 31 := hb
    have key : ∀ k n : Nat, n < 128 ^ (k + 1) → (varint n).length ≤ k + 1 := by
      intro k
      induction k with
      | zero => intro n h; unfold varint; rw [if_pos (by simpa using h)]; simp
      | succ k ih =>
        intro n h
        unfold varint
        split
        · simp
        · have := ih (n / 128) (Nat.div_lt_of_lt_mul (by rw [Nat.pow_succ] at h; omega))
          simp only [List.length_cons]; omega
    exact key 4 n (by omega)
  | compactU16 =>
    simp only [lenPrefix, compact]
    split
    · simp
    · split <;> simp
  | borsh => simp only [lenPrefix, fixed_length]; omega
  | other => cases he

/-- Slices of empty elements are read in as many rounds as there are bytes left, and each of the elements of an outer slice may
count the same bytes again: the work grows with the square of the length of the input. -/
theorem C92_violated_nested (e : Encoding) (he : e.valid = true) (m : Nat) (h0 : 0 < m) (hm : m ≤ readMax e) :
    ∃ b : Bytes, b.length ≤ 6 * m + 5 ∧ decodeWork e (.slice (.slice unit)) b = 1 + m * (1 + m) := by
  have hs := lenPrefix_short e he m hm
  let tail : Bytes := List.replicate m 0
  let rest : Bytes := (List.replicate m (lenPrefix e m)).flatten ++ tail
  have hrl : rest.length = m * (lenPrefix e m).length + m := by simp [rest, tail]
  refine ⟨lenPrefix e m ++ rest, ?_, ?_⟩
  · rw [List.length_append, hrl]
    have := Nat.mul_le_mul_left m hs
    omega
  · let d : Dec := { Dec.new (lenPrefix e m ++ rest) e with cur := some .le }
    have ho : d.Ok := new_ok (lenPrefix e m ++ rest) e
    have hr : d.rest = lenPrefix e m ++ rest := new_rest (lenPrefix e m ++ rest) e
    have hlen : readSeqLen e d = (.ok m, d.adv (lenPrefix e m).length) := readSeqLen_r he m hm d rest rfl ho hr
    have hrest := Dec.adv_rest (k := (lenPrefix e m).length) ho
    rw [hr, List.drop_left] at hrest
    have hok : (d.adv (lenPrefix e m).length).Ok := Dec.adv_ok ho (by rw [hr]; simp)
    have hrem : ¬ ((m : Int) > (d.adv (lenPrefix e m).length).remaining) := by
      have := (d.adv (lenPrefix e m).length).rest_length hok
      rw [hrest, hrl] at this
      omega
    show workCore e (.slice (.slice unit)) {} (.seq none) d = _
    unfold workCore sliceLen
    simp only [after, M.bind_ok hlen]
    rw [M.pure_apply]
    simp only []
    rw [if_neg (by omega), if_neg hrem]
    have : unit.slice.uintKind = none := rfl
    simp only [this]
    have := slices_work e he m h0 hm tail (by simp [tail]) m _ hok rfl hrest
    exact congrArg (1 + ·) this

/-! ### cases the theorems apply to -/

/-- `struct { A []map[string]uint16; B *[3]Uint64; C []struct{ D, E bool } }` -/
def catalogue : Ty := .struct (.cons { name := [65] } (.slice (.map .str (.uint .w16 false)))
  (.cons { name := [66] } (.ptr (.array 3 (.lib .uint64)))
  (.cons { name := [67] } (.slice (.struct (.cons { name := [68] } .bool (.cons { name := [69] } .bool .nil)))) .nil)))

example : feeds .bin catalogue = true ∧ feeds .borsh catalogue = true ∧ feeds .compactU16 catalogue = true := by decide

example : weight catalogue = 43 := by decide

/-- One map with one entry, the array, two pairs. -/
def catalogueBytes : Bytes := [1, 1, 1, 97, 5, 0] ++ List.replicate 24 7 ++ [2, 1, 0, 0, 1]

example : decodeWork .compactU16 catalogue catalogueBytes = 32 := by decide +kernel

example : ∃ v, unmarshal .compactU16 catalogue catalogue.zero catalogueBytes = .ok v ∧ cells v = 18 := ⟨_, rfl, by decide⟩

example : decodeWork .compactU16 catalogue catalogueBytes ≤ 43 * 36 :=
  C92_work_partial .compactU16 rfl catalogue (C92_declared_partial .compactU16 rfl catalogue (by decide)) catalogueBytes

/-- The measure also covers the slow types. -/
example : ∃ v, unmarshal .borsh (.map unit unit) (.map none) [3, 0, 0, 0] = .ok v ∧ cells v ≤ weight (.map unit unit) * 7 := by
  cases h : decode (.map unit unit) (.map none) (Dec.new [3, 0, 0, 0] .borsh) with
  | mk res d' =>
    have h0 : unmarshal .borsh (.map unit unit) (.map none) [3, 0, 0, 0] = res := by rw [unmarshal, h]
    have h1 := (C92_violated_entries .borsh rfl 3 (by decide) (by decide))
    rw [show lenPrefix .borsh 3 = [3, 0, 0, 0] from by decide] at h1
    rw [h1.2] at h0
    subst h0
    have := (C92_counted_partial .borsh rfl (.map unit unit) [3, 0, 0, 0] _ d' h).2
    rw [h1.1] at this
    exact ⟨_, h1.2, this⟩

/-- A length no input of this size can hold is refused after one step. -/
example : decodeWork .bin (.slice .bool) [0xff, 0xff, 0xff, 0xff, 7] = 1 := by decide +kernel

/-- The condition is met by a map whose keys take no bytes, if its values do. -/
example : feeds .bin (.map unit .bool) = true ∧ feeds .bin (.map unit unit) = false ∧ feeds .bin (.slice (.slice unit)) = false := by
  decide

example : takes .borsh (.array 0 .bool) false = false ∧ takes .borsh (.array 1 .bool) false = true := by decide

end Verif.Props
