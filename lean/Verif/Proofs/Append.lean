import Verif.Proofs.Inert
/-! A struct type extended with trailing extension fields. -/
set_option linter.unusedSimpArgs false
namespace Verif
open Spec

/-- the fields of `fs` followed by those of `gs` -/
def Fields.append : Fields → Fields → Fields
  | .nil, gs => gs
  | .cons m t fs, gs => .cons m t (fs.append gs)

/-- all fields are extension fields -/
def Fields.allExt : Fields → Bool
  | .nil => true
  | .cons m _ fs => m.tag.binExt && fs.allExt

/-- Where `r` succeeds and exhausts the buffer, `r'` does the same and returns `extra` in addition. -/
def Appends (extra : List Val) (r r' : DM (List Val)) : Prop :=
  ∀ d xs d', r d = (.ok xs, d') → d'.Ok → d'.rest = [] → r' d = (.ok (xs ++ extra), d')

section
variable {extra : List Val}

theorem Appends.bind {α : Type} {r : DM α} {f f' : α → DM (List Val)} (h : ∀ a, Appends extra (f a) (f' a)) :
    Appends extra (r >>= f) (r >>= f') := by
  intro d xs d' hr ho hre
  cases hm : r d with
  | mk res d1 =>
    cases res with
    | err x => rw [M.bind_err hm] at hr; simp at hr
    | panic => rw [M.bind_panic hm] at hr; simp at hr
    | ok a => rw [M.bind_ok hm] at hr ⊢; exact h a d1 xs d' hr ho hre

theorem Appends.cons {r r' : DM (List Val)} (v : Val) (h : Appends extra r r') :
    Appends extra (r >>= fun xs => pure (v :: xs)) (r' >>= fun xs => pure (v :: xs)) := by
  intro d xs d' hr ho hre
  cases hm : r d with
  | mk res d1 =>
    cases res with
    | err x => rw [M.bind_err hm] at hr; simp at hr
    | panic => rw [M.bind_panic hm] at hr; simp at hr
    | ok a =>
      rw [M.bind_ok hm] at hr
      simp only [M.pure_apply, Prod.mk.injEq, Res.ok.injEq] at hr
      obtain ⟨rfl, rfl⟩ := hr
      rw [M.bind_ok (h d a d1 hm ho hre)]
      simp

theorem Appends.ite {c : Prop} [Decidable c] {r s r' s' : DM (List Val)} (h1 : c → Appends extra r r')
    (h2 : ¬ c → Appends extra s s') : Appends extra (if c then r else s) (if c then r' else s') := by
  by_cases h : c
  · rw [if_pos h, if_pos h]; exact h1 h
  · rw [if_neg h, if_neg h]; exact h2 h

theorem Appends.panic {r' : DM (List Val)} : Appends extra M.panic r' := by
  intro d xs d' hr; simp at hr
end

theorem decFields_ext {e : Encoding} : (gs : Fields) → gs.allExt = true → (sm : List (Bytes × Int)) → (seen : Bool) →
    (os : List Val) → os.length = gs.length → ∀ d : Dec, d.Ok → d.rest = [] → decFields e gs sm seen os d = (.ok os, d)
  | .nil, _, sm, seen, os, hl, d, _, _ => by
    have : os = [] := List.length_eq_zero_iff.mp (by simpa [Fields.length] using hl)
    simp only [decFields, M.pure_apply, this]
  | .cons m t gs, h, sm, seen, [], hl, d, _, _ => by simp [Fields.length] at hl
  | .cons m t gs, h, sm, seen, o :: os, hl, d, ho, hr => by
    simp only [Fields.allExt, Bool.and_eq_true] at h
    have hl' : os.length = gs.length := by simpa [Fields.length] using hl
    simp only [decFields]
    by_cases hs : m.tag.skip = true
    · rw [if_pos hs, M.bind_ok (decFields_ext gs h.2 sm seen os hl' d ho hr)]; rfl
    · rw [if_neg hs, if_neg (by simp [h.1])]
      have hx : extensionEnds m d = (.ok true, d) := by
        unfold extensionEnds
        rw [if_pos h.1]
        unfold noBytesLeft
        rw [M.bind_ok (restM_ok ho), hr]; rfl
      rw [M.bind_ok hx, if_pos (by simp), M.bind_ok (decFields_ext gs h.2 sm _ os hl' d ho hr)]; rfl

theorem decFields_append {e : Encoding} (gs : Fields) (hg : gs.allExt = true) (extra : List Val)
    (hl : extra.length = gs.length) : (fs : Fields) → (sm : List (Bytes × Int)) → (seen : Bool) → (os : List Val) →
    os.length = fs.length → Appends extra (decFields e fs sm seen os) (decFields e (fs.append gs) sm seen (os ++ extra))
  | .nil, sm, seen, os, ho => by
    have : os = [] := List.length_eq_zero_iff.mp (by simpa [Fields.length] using ho)
    subst this
    intro d xs d' hr hok hre
    simp only [decFields, M.pure_apply, Prod.mk.injEq, Res.ok.injEq] at hr
    obtain ⟨rfl, rfl⟩ := hr
    simp only [Fields.append, List.nil_append]
    exact decFields_ext gs hg sm seen extra hl d hok hre
  | .cons m t fs, sm, seen, [], ho => by simp [Fields.length] at ho
  | .cons m t fs, sm, seen, o :: os, ho => by
    have hrec := fun sm seen => decFields_append (e := e) gs hg extra hl fs sm seen os (by simpa [Fields.length] using ho)
    simp only [Fields.append, List.cons_append, decFields]
    refine Appends.ite (fun _ => (hrec _ _).cons o) fun _ => Appends.ite (fun _ => Appends.panic) fun _ => ?_
    refine Appends.bind fun atEnd => Appends.ite (fun _ => (hrec _ _).cons o) fun _ => ?_
    cases (if e = .borsh then t.directLib else none) with
    | some p => exact Appends.bind fun x => (hrec _ _).cons _
    | none => exact Appends.bind fun x => Appends.bind fun sm' => (hrec _ _).cons _

theorem Fields.zeros_length : (fs : Fields) → fs.zeros.length = fs.length
  | .nil => rfl
  | .cons _ _ fs => by simp [Fields.zeros, Fields.length, fs.zeros_length]

theorem Fields.zeros_append : (fs gs : Fields) → (fs.append gs).zeros = fs.zeros ++ gs.zeros
  | .nil, _ => rfl
  | .cons _ _ fs, gs => by simp [Fields.append, Fields.zeros, fs.zeros_append gs]

theorem decode_append {e : Encoding} (hv : e.valid = true) (fs gs : Fields) (hg : gs.allExt = true)
    (hn : ¬ (e = .borsh ∧ (fs.append gs).isEnum = true)) (hn' : ¬ (e = .borsh ∧ fs.isEnum = true))
    (os extra : List Val) (ho : os.length = fs.length) (hl : extra.length = gs.length) (d d' : Dec) (v : Val)
    (he : d.enc = e) (h : decode (.struct fs) (.struct os) d = (.ok v, d')) (hok : d'.Ok) (hrest : d'.rest = []) :
    ∃ xs, v = .struct xs ∧ decode (.struct (fs.append gs)) (.struct (os ++ extra)) d = (.ok (.struct (xs ++ extra)), d') := by
  have hne : ¬ e = .other := by intro h; rw [h] at hv; cases hv
  unfold decode at h ⊢
  rw [M.bind_apply, M.get_apply] at h ⊢
  simp only [] at h ⊢
  rw [if_neg (by rw [he]; exact hne), he] at h ⊢
  simp only [decCore, decStruct, if_neg hn, if_neg hn', Val.fields] at h ⊢
  have hs : ∀ (r : DM Val), (setCurD .le >>= fun _ => r) d = r { d with cur := some .le } := fun r => rfl
  rw [hs] at h ⊢
  cases hm : decFields e fs [] false os { d with cur := some .le } with
  | mk res d1 =>
    cases res with
    | err x => rw [M.bind_err hm] at h; simp at h
    | panic => rw [M.bind_panic hm] at h; simp at h
    | ok xs =>
      rw [M.bind_ok hm] at h
      simp only [M.pure_apply, Prod.mk.injEq, Res.ok.injEq] at h
      obtain ⟨rfl, rfl⟩ := h
      refine ⟨xs, rfl, ?_⟩
      rw [M.bind_ok (decFields_append gs hg extra hl fs [] false os ho _ xs d1 hm hok hrest)]
      rfl

end Verif
