import Verif.Props.Failure
import Verif.Props.FailureParts
import Verif.Props.Fields
/-!
# C76: where a failed decode of a flagged field stops
-/
namespace Verif.Props
open Spec

/-- Nil pointers replaced by pointers to new zero values, all the way down. -/
inductive Allocated : Ty → Val → Val → Prop
  | base {t v} (h : ∀ t', t ≠ .ptr t') : Allocated t v v
  | new {t y} (h : Allocated t t.zero y) : Allocated (.ptr t) (.ptr none) (.ptr (some y))
  | old {t x y} (h : Allocated t x y) : Allocated (.ptr t) (.ptr (some x)) (.ptr (some y))

theorem allocated_allocated {N : Nat} : (t : Ty) → (v : Val) → Shaped N t v → Allocated t v (allocated t v)
  | .ptr t, v, hs => by
    cases v <;> simp only [Shaped] at hs
    rename_i p
    cases p with
    | none => exact .new (allocated_allocated t t.zero (zero_shaped N t))
    | some x => exact .old (allocated_allocated t x hs)
  | .lib _, v, _ => .base (by simp)
  | .slice _, v, _ => .base (by simp)
  | .array _ _, v, _ => .base (by simp)
  | .map _ _, v, _ => .base (by simp)
  | .struct _, v, _ => .base (by simp)
  | .iface, v, _ => .base (by simp)
  | .plainInt, v, _ => .base (by simp)
  | .plainUint, v, _ => .base (by simp)
  | .other, v, _ => .base (by simp)
  | .bool, v, _ => .base (by simp)
  | .uint _ _, v, _ => .base (by simp)
  | .int _ _, v, _ => .base (by simp)
  | .borshEnum, v, _ => .base (by simp)
  | .f32, v, _ => .base (by simp)
  | .f64, v, _ => .base (by simp)
  | .str, v, _ => .base (by simp)

theorem fillCore_opt (e : Encoding) : (t : Ty) → (o o' : Opt) → (old : Val) → o.sizeOf = o'.sizeOf → o.order = o'.order →
    fillCore e t o old = fillCore e t o' old
  | .ptr t, o, o', old, h1, h2 => by
    simp only [fillCore]
    rw [fillCore_opt e t o o' _ h1 h2]
  | .slice t, o, o', old, h1, h2 => by simp only [fillCore, h1]
  | .lib l, o, o', old, h1, h2 => by simp only [fillCore]
  | .array n t, o, o', old, h1, h2 => by simp only [fillCore]
  | .map k t, o, o', old, h1, h2 => by simp only [fillCore]
  | .struct fs, o, o', old, h1, h2 => by simp only [fillCore]
  | .iface, o, o', old, h1, h2 => by simp only [fillCore]
  | .plainInt, o, o', old, h1, h2 => by simp only [fillCore]
  | .plainUint, o, o', old, h1, h2 => by simp only [fillCore]
  | .other, o, o', old, h1, h2 => by simp only [fillCore]
  | .bool, o, o', old, h1, h2 => by simp only [fillCore, fillPlain, decPlain, h2]
  | .uint _ _, o, o', old, h1, h2 => by simp only [fillCore, fillPlain, decPlain, h2]
  | .int _ _, o, o', old, h1, h2 => by simp only [fillCore, fillPlain, decPlain, h2]
  | .borshEnum, o, o', old, h1, h2 => by simp only [fillCore, fillPlain, decPlain, h2]
  | .f32, o, o', old, h1, h2 => by simp only [fillCore, fillPlain, decPlain, h2]
  | .f64, o, o', old, h1, h2 => by simp only [fillCore, fillPlain, decPlain, h2]
  | .str, o, o', old, h1, h2 => by simp only [fillCore, fillPlain, decPlain, h2]

/-- The bytes `bs` do not start with a flag. -/
def NoFlag (P : Bytes → Prop) (bs : Bytes) : Prop := ∀ f rest, bs = f ++ rest → ¬ P f

/-- C76, flags: a field that failed is as before when its flag could not be read.  In Borsh, when the first of two flags was
read and the second could not be, its pointers have been allocated.  Otherwise it holds what a failed decode of the value
behind the flags leaves. -/
theorem flags_stopped {e : Encoding} (he : e.valid = true) (m : FieldMeta) (t : Ty) (old : Val)
    (hle : m.tag.order = .le) {N : Nat} (hs : Shaped N t old)
    (cur : Option Order) (pre unread : Bytes) (x : Val) (d' : Dec) (er : Err)
    (h : fillField e t (fieldOpt m []) old (fillCore e t (fieldOpt m []) old) (decAt e cur pre unread) = (.err er, x, d')) :
    (x = old ∧
      ((m.tag.option = true ∧ NoFlag (fun f => ∃ b, OptionFlag e f b) unread) ∨
       (m.tag.option = false ∧ e = .borsh ∧ m.tag.coption = true ∧ NoFlag (fun f => ∃ b, COptionFlag f b) unread))) ∨
    (m.tag.option = true ∧ e = .borsh ∧ m.tag.coption = true ∧ Allocated t old x ∧
      ∃ f rest, unread = f ++ rest ∧ OptionFlag e f true ∧ NoFlag (fun f => ∃ b, COptionFlag f b) rest) ∨
    (∃ f rest, unread = f ++ rest ∧ Flags e m.tag f .here ∧ decodeInto t old (decAt e cur (pre ++ f) rest) = (.err er, x, d')) := by
  have hcore : ∀ f rest, fillCore e t (fieldOpt m []) old (decAt e (some .le) (pre ++ f) rest) = (.err er, x, d') →
      decodeInto t old (decAt e cur (pre ++ f) rest) = (.err er, x, d') := by
    intro f rest h
    rw [fillCore_opt e t (fieldOpt m []) {} old (by simp [fieldOpt, lookupSize]) hle] at h
    rw [decodeInto_core he _ _ rfl]
    exact h
  have noflag : ∀ (pre unread : Bytes), readFlag e (decAt e (some .le) pre unread) = (.err er, d') →
      NoFlag (fun f => ∃ b, OptionFlag e f b) unread := by
    rintro pre unread h f rest rfl ⟨b, hb⟩
    rw [(readFlag_cases he _ _ _ _ _).2 ⟨f, rest, rfl, hb, rfl⟩] at h
    cases h
  have nocflag : ∀ (pre unread : Bytes), readCOption (decAt e (some .le) pre unread) = (.err er, d') →
      NoFlag (fun f => ∃ b, COptionFlag f b) unread := by
    rintro pre unread h f rest rfl ⟨b, hb⟩
    rw [(readCOption_cases _ _ _ _ _).2 ⟨f, rest, rfl, hb, rfl⟩] at h
    cases h
  unfold fillField at h
  rcases Fill.read_err h with ⟨h1, -⟩ | ⟨_, d1, h1, h2⟩
  · simp [setCurD] at h1
  simp only [setCurD, M.modify_apply, Prod.mk.injEq, true_and] at h1
  have hd1 : d1 = decAt e (some .le) pre unread := by
    rw [← h1]
    show ({ decAt e cur pre unread with cur := some m.tag.order } : Dec) = _
    rw [hle]
    rfl
  subst hd1
  clear h h1
  simp only [show (fieldOpt m []).optional = m.tag.option from rfl, show (fieldOpt m []).coptional = m.tag.coption from rfl] at h2
  by_cases hop : m.tag.option = true
  · rw [if_pos hop] at h2
    split at h2
    · simp [Fill.stop] at h2
    rcases Fill.read_err h2 with ⟨h3, rfl⟩ | ⟨b, d1, h3, h4⟩
    · exact .inl ⟨rfl, .inl ⟨hop, noflag _ _ h3⟩⟩
    obtain ⟨f, rest, rfl, hf, rfl⟩ := (readFlag_cases he _ _ _ _ _).1 h3
    cases b with
    | false => simp [Fill.done] at h4
    | true =>
      rw [if_pos rfl] at h4
      by_cases hco : e = .borsh ∧ m.tag.coption = true
      · rw [if_pos hco] at h4
        split at h4
        · simp [Fill.stop] at h4
        rcases Fill.read_err h4 with ⟨h5, rfl⟩ | ⟨b, d1, h5, h6⟩
        · exact .inr (.inl ⟨hop, hco.1, hco.2, allocated_allocated t old hs, f, rest, rfl, hf, nocflag _ _ h5⟩)
        obtain ⟨g, rest, rfl, hg, rfl⟩ := (readCOption_cases _ _ _ _ _).1 h5
        cases b with
        | false => simp [Fill.done] at h6
        | true =>
          rw [if_pos rfl, List.append_assoc] at h6
          exact .inr (.inr ⟨f ++ g, rest, by simp, .both hop hco.1 hco.2 hf hg, hcore _ _ h6⟩)
      · rw [if_neg hco] at h4
        exact .inr (.inr ⟨f, rest, rfl, .here hop hco hf, hcore _ _ h4⟩)
  · have hof : m.tag.option = false := by simpa using hop
    rw [if_neg hop] at h2
    by_cases hco : e = .borsh ∧ m.tag.coption = true
    · rw [if_pos hco] at h2
      split at h2
      · simp [Fill.stop] at h2
      rcases Fill.read_err h2 with ⟨h3, rfl⟩ | ⟨b, d1, h3, h4⟩
      · exact .inl ⟨rfl, .inr ⟨hof, hco.1, hco.2, nocflag _ _ h3⟩⟩
      obtain ⟨f, rest, rfl, hf, rfl⟩ := (readCOption_cases _ _ _ _ _).1 h3
      cases b with
      | false => simp [Fill.done] at h4
      | true =>
        rw [if_pos rfl] at h4
        exact .inr (.inr ⟨f, rest, rfl, .chere hof hco.1 hco.2 hf, hcore _ _ h4⟩)
    · rw [if_neg hco] at h2
      exact .inr (.inr ⟨[], unread, rfl, .none hof hco, hcore [] unread (by simpa using h2)⟩)

/-- C76, the field in which a failed decode of a struct has stopped: the fields before it were decoded, and behind them its flags
or its value could not be read. -/
theorem C76_flags {e : Encoding} (he : e.valid = true) (fs : Fields) (hn : ¬ (e = .borsh ∧ fs.isEnum = true))
    (ht : decodable e (.struct fs) false = true) (os : List Val) {N : Nat} (hold : Shaped N (.struct fs) (.struct os))
    (cur : Option Order) (pre unread : Bytes) (d' : Dec) (er : Err) (after : Val)
    (h : decodeInto (.struct fs) (.struct os) (decAt e cur pre unread) = (.err er, after, d')) :
    ∃ before m t behind olds old rest xs x cur1 pre1 unread1,
      fs = joined before (.cons m t behind) ∧ os = olds ++ old :: rest ∧ olds.length = before.length ∧
      after = .struct (xs ++ x :: rest) ∧ xs.length = before.length ∧
      decode (.struct before) (.struct olds) (decAt e cur pre unread) = (.ok (.struct xs), decAt e cur1 pre1 unread1) ∧
      (m.tag.order = .le → m.name ∉ announces before → (e = .borsh → t.directLib = none) →
        (x = old ∧
          ((m.tag.option = true ∧ NoFlag (fun f => ∃ b, OptionFlag e f b) unread1) ∨
           (m.tag.option = false ∧ e = .borsh ∧ m.tag.coption = true ∧ NoFlag (fun f => ∃ b, COptionFlag f b) unread1))) ∨
        (m.tag.option = true ∧ e = .borsh ∧ m.tag.coption = true ∧ Allocated t old x ∧
          ∃ f rest, unread1 = f ++ rest ∧ OptionFlag e f true ∧ NoFlag (fun f => ∃ b, COptionFlag f b) rest) ∨
        (∃ f rest, unread1 = f ++ rest ∧ Flags e m.tag f .here ∧
          decodeInto t old (decAt e cur1 (pre1 ++ f) rest) = (.err er, x, d'))) := by
  rw [decodeInto_core he _ _ rfl] at h
  simp only [fillCore, fillStruct, if_neg hn, Val.fields] at h
  obtain ⟨ws, h1, rfl⟩ := Fill.wrap_err h
  obtain ⟨s⟩ := fillFields_stopped e er fs [] false os _ ws d' h1
  have hn1 : ¬ (e = .borsh ∧ s.before.isEnum = true) := by
    rintro ⟨h2, h3⟩
    have : fs.isEnum = false := by
      cases hf : fs.isEnum
      · rfl
      · exact absurd ⟨h2, hf⟩ hn
    rw [s.hfs] at this
    rw [joined_enum this] at h3
    cases h3
  have hdec : decode (.struct s.before) (.struct s.olds) (decAt e cur pre unread) = (.ok (.struct s.xs), s.d1) := by
    rw [decode_core he]
    simp only [decCore, decStruct, if_neg hn1, Val.fields]
    exact (M.bind_ok s.hxs).trans rfl
  have htb : decodable e (.struct s.before) false = true := by
    simp only [decodable, if_neg hn, if_neg hn1] at ht ⊢
    rw [s.hfs] at ht
    exact joined_decodable _ _ _ _ ht
  simp only [Shaped] at hold
  have hsplit : ShapedFields N (joined s.before (.cons s.m s.t s.behind)) (s.olds ++ s.old :: s.rest) := by
    rw [← s.hfs, ← s.hos]
    exact hold
  have hob : ShapedFields N s.before s.olds := shapedFields_append s.before (.cons s.m s.t s.behind) s.olds (s.old :: s.rest) s.hlen hsplit
  have hold1 : Shaped N s.t s.old := by
    have : ∀ (fs : Fields) (xs : List Val) (gs : Fields) (ys : List Val), xs.length = fs.length →
        ShapedFields N (joined fs gs) (xs ++ ys) → ShapedFields N gs ys := by
      intro fs
      induction fs using Fields.rec (motive_1 := fun _ => True) with
      | nil =>
        intro xs gs ys hl h
        cases xs with
        | nil => exact h
        | cons => simp [Fields.length] at hl
      | cons m t fs _ ih =>
        intro xs gs ys hl h
        cases xs with
        | nil => simp [Fields.length] at hl
        | cons a as =>
          simp only [joined, List.cons_append, ShapedFields] at h
          exact ih as gs ys (by simpa [Fields.length] using hl) h.2
      | _ => trivial
    have := this s.before s.olds _ _ s.hlen hsplit
    simp only [ShapedFields] at this
    exact this.1
  obtain ⟨res, k, c, hr, hk, -, hq⟩ := decode_safe he (.struct s.before) (.struct s.olds) htb (decAt e cur pre unread)
    (decAt_ok _ _ _ _) rfl (N := max N unread.length) (by rw [decAt_rest]; omega)
    (shaped_mono (N := N) (by omega) (.struct s.before) (.struct s.olds) (by simpa only [Shaped] using hob))
  rw [hdec] at hr
  simp only [Prod.mk.injEq] at hr
  have hshape := hq _ hr.1.symm
  have hxl : s.xs.length = s.before.length := shapedFields_length _ _ (by simpa only [Shaped] using hshape)
  have hg1 : Good e unread.length s.d1 := by
    rw [hr.2]
    exact good_to (good_decAt e cur pre unread) c hk
  obtain ⟨pre1, hpre1⟩ := exists_decAt hg1
  refine ⟨s.before, s.m, s.t, s.behind, s.olds, s.old, s.rest, s.xs, s.x, s.d1.cur, pre1, s.d1.rest, s.hfs, s.hos, s.hlen,
    by rw [← s.hafter], hxl, by rw [← hpre1]; exact hdec, fun hor hname hdl => ?_⟩
  have hnone : (if e = .borsh then s.t.directLib else none) = none := by
    split
    · exact hdl (by assumption)
    · rfl
  have hopt : fieldOpt s.m s.sm' = fieldOpt s.m [] := by
    unfold fieldOpt
    rw [lookupSize_none (s.hsm _ (by simp) hname)]
    rfl
  rcases s.hfield with ⟨h2, l, p, h3, -⟩ | ⟨-, h3⟩
  · rw [if_pos h2, h3] at hnone; cases hnone
  rw [hopt, hpre1] at h3
  exact flags_stopped he s.m s.t s.old hor hold1 _ _ _ _ _ _ h3

/-- A Borsh struct: the field with two flags got the first one and not the second, and has a new pointer now. -/
example :
    let fs : Fields := .cons { name := [65] } (.uint .w8 false)
      (.cons { name := [66], tag := { option := true, coption := true } } (.ptr .bool) (.cons { name := [67] } .str .nil))
    decodable .borsh (.struct fs) false = true ∧
    Shaped 1 (.struct fs) (.struct [.uint 1, .ptr none, .str [120]]) ∧
    decodeInto (.struct fs) (.struct [.uint 1, .ptr none, .str [120]]) (decAt .borsh none [] [5, 1, 0, 0]) =
      (.err .notEnough, .struct [.uint 5, .ptr (some (.bool false)), .str [120]], decAt .borsh (some .le) [5, 1] [0, 0]) := by
  refine ⟨by decide +kernel, by simp [Shaped, ShapedFields], by decide +kernel⟩

end Verif.Props
