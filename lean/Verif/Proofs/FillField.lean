import Verif.Proofs.FillSafe
import Verif.Spec.Partial
/-!
# Where a failed decode has stopped
-/
namespace Verif
open Spec

section
variable {α β : Type}

theorem Fill.wrap_err {f : Fill α} {w : α → β} {d d' : Dec} {x : Err} {b : β} (h : f.wrap w d = (.err x, b, d')) :
    ∃ a, f d = (.err x, a, d') ∧ b = w a := by
  unfold Fill.wrap Fill.part Fill.done at h
  rcases hf : f d with ⟨_ | _ | _, a, d1⟩ <;> rw [hf] at h <;> simp at h
  obtain ⟨rfl, rfl, rfl⟩ := h
  exact ⟨a, rfl, rfl⟩

theorem Fill.part_err {f : Fill α} {w : α → β} {g : α → Fill β} {d d' : Dec} {x : Err} {b : β}
    (h : f.part w g d = (.err x, b, d')) :
    (∃ a, f d = (.err x, a, d') ∧ b = w a) ∨ ∃ a d1, f d = (.ok (), a, d1) ∧ g a d1 = (.err x, b, d') := by
  unfold Fill.part at h
  rcases hf : f d with ⟨u | _ | _, a, d1⟩ <;> rw [hf] at h <;> simp at h
  · exact .inr ⟨a, d1, by cases u; rfl, h⟩
  · obtain ⟨rfl, rfl, rfl⟩ := h
    exact .inl ⟨a, rfl, rfl⟩

theorem Fill.read_err {m : DM α} {k : β} {f : α → Fill β} {d d' : Dec} {x : Err} {b : β}
    (h : Fill.read m k f d = (.err x, b, d')) :
    (m d = (.err x, d') ∧ b = k) ∨ ∃ a d1, m d = (.ok a, d1) ∧ f a d1 = (.err x, b, d') := by
  unfold Fill.read at h
  rcases hf : m d with ⟨a | _ | _, d1⟩ <;> rw [hf] at h <;> simp at h
  · exact .inr ⟨a, d1, rfl, h⟩
  · obtain ⟨rfl, rfl, rfl⟩ := h
    exact .inl ⟨rfl, rfl⟩

theorem Fill.run_ok {f : Fill α} {d d' : Dec} {a : α} (h : f d = (.ok (), a, d')) : f.run d = (.ok a, d') := by
  unfold Fill.run; rw [h]

theorem Fill.run_err {f : Fill α} {d d' : Dec} {a : α} {x : Err} (h : f d = (.err x, a, d')) : f.run d = (.err x, d') := by
  unfold Fill.run; rw [h]
end

theorem extensionEnds_out {m : FieldMeta} {d d' : Dec} {r : Res Bool} (h : extensionEnds m d = (r, d')) :
    d' = d ∧ ∀ x, r ≠ .err x := by
  unfold extensionEnds at h
  split at h
  · unfold noBytesLeft at h
    by_cases hp : 0 ≤ d.pos ∧ d.pos ≤ d.data.length
    · have hr : restM d = (.ok (d.data.drop d.pos.toNat), d) := by unfold restM; rw [if_pos hp]
      rw [M.bind_ok hr] at h
      simp at h
      obtain ⟨rfl, rfl⟩ := h
      simp
    · have hr : restM d = (.panic, d) := by unfold restM; rw [if_neg hp]
      rw [M.bind_panic hr] at h
      simp at h
      obtain ⟨rfl, rfl⟩ := h
      simp
  · simp at h
    obtain ⟨rfl, rfl⟩ := h
    simp

theorem recordSize_out {m : FieldMeta} {t : Ty} {v : Val} {sm : List (Bytes × Int)} {d d' : Dec} {r : Res (List (Bytes × Int))}
    (h : recordSize m t v sm d = (r, d')) : d' = d ∧ ∀ x, r ≠ .err x := by
  unfold recordSize at h
  split at h
  · simp at h; obtain ⟨rfl, rfl⟩ := h; simp
  · simp only [M.bind_apply, M.lift_apply] at h
    have : ∀ x, sizeofVal t.kind v ≠ .err x := by
      intro x
      unfold sizeofVal
      split <;> simp
    cases hs : sizeofVal t.kind v with
    | err x => exact absurd hs (this x)
    | ok n => rw [hs] at h; simp at h; obtain ⟨rfl, rfl⟩ := h; simp
    | panic => rw [hs] at h; simp at h; obtain ⟨rfl, rfl⟩ := h; simp

/-- The place where the field loop stopped: `done` fields before were decoded into `xs`, the field of type `t` was being
decoded and holds `x`, the others are as before. -/
structure Stopped (e : Encoding) (fs : Fields) (sm : List (Bytes × Int)) (seen : Bool) (os : List Val) (d : Dec)
    (er : Err) (after : List Val) (d' : Dec) where
  before : Fields
  m : FieldMeta
  t : Ty
  behind : Fields
  olds : List Val
  old : Val
  rest : List Val
  xs : List Val
  x : Val
  sm' : List (Bytes × Int)
  d1 : Dec
  hfs : fs = joined before (.cons m t behind)
  hos : os = olds ++ old :: rest
  hlen : olds.length = before.length
  hafter : after = xs ++ x :: rest
  hxs : decFields e before sm seen olds d = (.ok xs, d1)
  hskip : m.tag.skip = false
  hexp : m.exported = true
  hext : extensionEnds m d1 = (.ok false, d1)
  hsm : ∀ n, (∀ p ∈ sm, p.1 ≠ n) → n ∉ announces before → ∀ p ∈ sm', p.1 ≠ n
  hfield : (e = .borsh ∧ ∃ l p, t.directLib = some (l, p) ∧ x = old ∧ unmarshalLib l l.zero d1 = (.err er, d')) ∨
    ((if e = .borsh then t.directLib else none) = none ∧
      fillField e t (fieldOpt m sm') old (fillCore e t (fieldOpt m sm') old) d1 = (.err er, x, d'))

theorem fillFields_stopped (e : Encoding) (er : Err) : ∀ (fs : Fields) (sm : List (Bytes × Int)) (seen : Bool) (os : List Val)
    (d : Dec) (after : List Val) (d' : Dec), fillFields e fs sm seen os d = (.err er, after, d') →
    Nonempty (Stopped e fs sm seen os d er after d')
  | .nil, sm, seen, os, d, after, d', h => by simp [fillFields, Fill.done] at h
  | .cons m t fs, sm, seen, [], d, after, d', h => by simp [fillFields, Fill.stop] at h
  | .cons m t fs, sm, seen, v :: vs, d, after, d', h => by
    have ih := fillFields_stopped e er fs
    have more : ∀ sm1 seen1 y d1 ys, fillFields e fs sm1 seen1 vs d1 = (.err er, ys, d') → after = y :: ys →
        (∀ gs us, decFields e (.cons m t gs) sm seen (v :: us) d =
          (decFields e gs sm1 seen1 us >>= fun ws => pure (y :: ws)) d1) →
        (∀ n, (∀ p ∈ sm, p.1 ≠ n) → m.tag.sizeOf ≠ n → ∀ p ∈ sm1, p.1 ≠ n) →
        Nonempty (Stopped e (.cons m t fs) sm seen (v :: vs) d er after d') := by
      intro sm1 seen1 y d1 ys h1 ha hd hsm
      obtain ⟨s⟩ := ih sm1 seen1 vs d1 ys d' h1
      refine ⟨{ s with
        before := .cons m t s.before, olds := v :: s.olds, xs := y :: s.xs,
        hfs := by rw [joined, ← s.hfs], hos := by rw [List.cons_append, ← s.hos],
        hlen := by simp [Fields.length, s.hlen], hafter := by rw [ha, List.cons_append, ← s.hafter],
        hxs := ?_, hsm := ?_ }⟩
      · rw [hd, M.bind_ok s.hxs]; rfl
      · intro n h1 h2
        simp only [announces, List.mem_cons, not_or] at h2
        exact s.hsm n (hsm n h1 (fun h => h2.1 h.symm)) h2.2
    simp only [fillFields] at h
    by_cases hs : m.tag.skip = true
    · rw [if_pos hs] at h
      obtain ⟨ys, h1, h2⟩ := Fill.wrap_err h
      refine more sm seen v d ys h1 h2 (fun gs us => ?_) (fun n h _ => h)
      simp only [decFields, if_pos hs]
    rw [if_neg hs] at h
    by_cases hb : (!m.tag.binExt && seen) = true
    · rw [if_pos hb] at h; simp [Fill.stop] at h
    rw [if_neg hb] at h
    rcases Fill.read_err h with ⟨h1, -⟩ | ⟨atEnd, d1, h1, h2⟩
    · exact absurd rfl ((extensionEnds_out h1).2 er)
    obtain rfl := (extensionEnds_out h1).1
    by_cases hx : (atEnd || !m.exported) = true
    · rw [if_pos hx] at h2
      obtain ⟨ys, h3, h4⟩ := Fill.wrap_err h2
      refine more sm _ v _ ys h3 h4 (fun gs us => ?_) (fun n h _ => h)
      simp only [decFields, if_neg hs, if_neg hb]
      rw [M.bind_ok h1, if_pos hx]
    rw [if_neg hx] at h2
    have hexp : m.exported = true := by
      cases hm : m.exported
      · rw [hm] at hx; simp at hx
      · rfl
    have hext : extensionEnds m d1 = (.ok false, d1) := by
      cases atEnd
      · exact h1
      · simp at hx
    have here : ∀ x, after = x :: vs → ((e = .borsh ∧ ∃ l p, t.directLib = some (l, p) ∧ x = v ∧
        unmarshalLib l l.zero d1 = (.err er, d')) ∨
        ((if e = .borsh then t.directLib else none) = none ∧
          fillField e t (fieldOpt m sm) v (fillCore e t (fieldOpt m sm) v) d1 = (.err er, x, d'))) →
        Nonempty (Stopped e (.cons m t fs) sm seen (v :: vs) d1 er after d') := by
      intro x ha hf
      exact ⟨{ before := .nil, m := m, t := t, behind := fs, olds := [], old := v, rest := vs, xs := [], x := x, sm' := sm,
               d1 := d1, hfs := rfl, hos := rfl, hlen := rfl, hafter := ha, hxs := by simp [decFields],
               hskip := by simpa using hs, hexp := hexp, hext := hext, hsm := fun n h _ => h, hfield := hf }⟩
    cases hl : (if e = .borsh then t.directLib else none) with
    | some lp =>
      obtain ⟨l, p⟩ := lp
      rw [hl] at h2
      simp only [] at h2
      rcases Fill.read_err h2 with ⟨h3, h4⟩ | ⟨x, d2, h3, h4⟩
      · refine here v h4 (.inl ?_)
        split at hl
        · exact ⟨by assumption, l, p, hl, rfl, h3⟩
        · cases hl
      · obtain ⟨ys, h5, h6⟩ := Fill.wrap_err h4
        refine more sm _ _ d2 ys h5 h6 (fun gs us => ?_) (fun n h _ => h)
        simp only [decFields, if_neg hs, if_neg hb]
        rw [M.bind_ok h1, if_neg hx, hl]
        simp only []
        rw [M.bind_ok h3]
    | none =>
      rw [hl] at h2
      simp only [] at h2
      rcases Fill.part_err h2 with ⟨x, h3, h4⟩ | ⟨x, d2, h3, h4⟩
      · exact here x h4 (.inr ⟨hl, h3⟩)
      · rcases Fill.read_err h4 with ⟨h5, -⟩ | ⟨sm2, d3, h5, h6⟩
        · exact absurd rfl ((recordSize_out h5).2 er)
        obtain rfl := (recordSize_out h5).1
        obtain ⟨ys, h7, h8⟩ := Fill.wrap_err h6
        refine more sm2 _ x d3 ys h7 h8 (fun gs us => ?_) ?_
        · simp only [decFields, if_neg hs, if_neg hb]
          rw [M.bind_ok h1, if_neg hx, hl]
          simp only []
          have h3' := Fill.run_ok h3
          rw [run_fillField, run_fillCore] at h3'
          rw [M.bind_ok h3', M.bind_ok h5]
        · intro n hn hm
          unfold recordSize at h5
          split at h5
          · simp at h5; rw [← h5]; exact hn
          · simp only [M.bind_apply, M.lift_apply] at h5
            cases hz : sizeofVal t.kind x <;> rw [hz] at h5 <;> simp at h5
            subst h5
            intro p hp
            rcases List.mem_cons.mp hp with rfl | hp
            · exact hm
            · exact hn p hp

end Verif
