import Verif.Model.Work
import Verif.Spec.Work
import Verif.Proofs.DecodeSafe
import Verif.Proofs.Utf8
import Verif.Proofs.Got
/-!
Work and size of the result of a decode, counted in bytes taken.
-/
set_option linter.unusedSimpArgs false
namespace Verif
open Spec

/-- `m` does at most `S` units of work per byte at hand; if it succeeds, at most `S` per byte taken (and at least one), and its
result is no larger. -/
def Costs {α : Type} (e : Encoding) (m : DM α) (w : Dec → Nat) (S : Nat) (sz : α → Nat) : Prop :=
  ∀ d : Dec, d.Ok → d.enc = e → ∃ res k c, m d = (res, d.to k c) ∧ k ≤ d.rest.length ∧ w d ≤ S * (d.rest.length + 1) ∧
    ∀ a, res = .ok a → w d ≤ S * max 1 k ∧ sz a ≤ S * max 1 k

section
variable {α β : Type} {e : Encoding}

theorem to_rest_length {d : Dec} (ho : d.Ok) (k : Nat) (c : Option Order) : (d.to k c).rest.length = d.rest.length - k := by
  rw [Dec.to_rest, Dec.adv_rest ho, List.length_drop]

theorem Costs.pure {w : Dec → Nat} {S : Nat} {sz : α → Nat} (a : α) (hw : ∀ d, w d ≤ S) (hs : sz a ≤ S) : Costs e (pure a) w S sz := by
  intro d _ _
  refine ⟨.ok a, 0, d.cur, by simp [Dec.to], by omega, ?_, ?_⟩
  · exact Nat.le_trans (hw d) (Nat.le_mul_of_pos_right _ (by omega))
  · rintro b hb; cases hb
    simpa using ⟨hw d, hs⟩

theorem Costs.err {w : Dec → Nat} {S : Nat} {sz : α → Nat} (x : Err) (hw : ∀ d, w d ≤ S) : Costs e (M.err x) w S sz := by
  intro d _ _
  refine ⟨.err x, 0, d.cur, by simp [Dec.to], by omega, ?_, ?_⟩
  · exact Nat.le_trans (hw d) (Nat.le_mul_of_pos_right _ (by omega))
  · rintro b hb; cases hb

theorem Costs.panic {w : Dec → Nat} {S : Nat} {sz : α → Nat} (hw : ∀ d, w d ≤ S) : Costs e (M.panic : DM α) w S sz := by
  intro d _ _
  refine ⟨.panic, 0, d.cur, by simp [Dec.to], by omega, ?_, ?_⟩
  · exact Nat.le_trans (hw d) (Nat.le_mul_of_pos_right _ (by omega))
  · rintro b hb; cases hb

theorem Costs.bind {m : DM α} {f : α → DM β} {w1 : Dec → Nat} {w2 : α → Dec → Nat} {S1 S2 : Nat} {sz1 : α → Nat} {sz : β → Nat}
    (h1 : Costs e m w1 S1 sz1) (h2 : ∀ a, Costs e (f a) (w2 a) S2 (fun b => sz b - sz1 a)) :
    Costs e (m >>= f) (fun d => w1 d + after m d w2) (S1 + S2) sz := by
  intro d ho he
  obtain ⟨res, k, c, hr, hk, hw, hq⟩ := h1 d ho he
  cases res with
  | panic =>
    refine ⟨.panic, k, c, by rw [M.bind_panic hr], hk, ?_, by simp⟩
    simp only [after, hr]
    rw [Nat.add_mul]; omega
  | err x =>
    refine ⟨.err x, k, c, by rw [M.bind_err hr], hk, ?_, by simp⟩
    simp only [after, hr]
    rw [Nat.add_mul]; omega
  | ok a =>
    obtain ⟨hq1, hq2⟩ := hq a rfl
    obtain ⟨res2, k2, c2, hr2, hk2, hw2, hq3⟩ := h2 a (d.to k c) (Dec.to_ok (Dec.adv_ok ho hk)) he
    rw [to_rest_length ho] at hk2 hw2
    refine ⟨res2, k + k2, c2, by rw [M.bind_ok hr, hr2, Dec.to_to], by omega, ?_, ?_⟩
    · simp only [after, hr]
      rw [Nat.add_mul]
      have a1 : S2 * (d.rest.length - k + 1) ≤ S2 * (d.rest.length + 1) := Nat.mul_le_mul_left _ (by omega)
      omega
    · intro b hb
      obtain ⟨h3, h4⟩ := hq3 b hb
      have h5 : sz b - sz1 a ≤ S2 * max 1 k2 := h4
      have a1 : S1 * max 1 k ≤ S1 * max 1 (k + k2) := Nat.mul_le_mul_left _ (by omega)
      have a2 : S2 * max 1 k2 ≤ S2 * max 1 (k + k2) := Nat.mul_le_mul_left _ (by omega)
      simp only [after, hr]
      rw [Nat.add_mul]
      omega

/-- A step that costs nothing and whose result counts nothing. -/
theorem Prim.free (hv : e.valid = true) {m : DM α} (h : Prim m) : Costs e m (fun _ => 0) 0 (fun _ => 0) := by
  intro d ho he
  obtain ⟨res, k, hr, -, hk⟩ := h d ho (by rw [he]; exact hv)
  exact ⟨res, k, d.cur, hr, hk, Nat.zero_le _, fun _ _ => ⟨Nat.zero_le _, Nat.zero_le _⟩⟩

theorem Costs.step (hv : e.valid = true) {m : DM α} {f : α → DM β} {w2 : α → Dec → Nat} {S : Nat} {sz : β → Nat} (h : Prim m)
    (h2 : ∀ a, Costs e (f a) (w2 a) S sz) : Costs e (m >>= f) (fun d => after m d w2) S sz := by
  have := (h.free hv).bind (w2 := w2) (S2 := S) (sz := sz) (fun a => by simpa using h2 a)
  simpa using this

theorem Costs.weaken {m : DM α} {w w' : Dec → Nat} {S S' : Nat} {sz sz' : α → Nat} (h : Costs e m w S sz)
    (hw : ∀ d, w' d ≤ w d + (S' - S)) (hS : S ≤ S') (hs : ∀ a, sz' a ≤ sz a + (S' - S)) : Costs e m w' S' sz' := by
  intro d ho he
  obtain ⟨res, k, c, hr, hk, h1, h2⟩ := h d ho he
  have key : ∀ n x y, 1 ≤ n → x ≤ S * n → y ≤ x + (S' - S) → y ≤ S' * n := by
    intro n x y hn hx hy
    have : S' * n = S * n + (S' - S) * n := by rw [← Nat.add_mul]; congr 1; omega
    have : S' - S ≤ (S' - S) * n := Nat.le_mul_of_pos_right _ hn
    omega
  refine ⟨res, k, c, hr, hk, key _ _ _ (by omega) h1 (hw d), ?_⟩
  intro a ha
  exact ⟨key _ _ _ (by omega) (h2 a ha).1 (hw d), key _ _ _ (by omega) (h2 a ha).2 (hs a)⟩

/-- One more unit of work; the result may be larger by `n`. -/
theorem Costs.more (n : Nat) {m : DM α} {w w' : Dec → Nat} {S : Nat} {sz sz' : α → Nat} (h : Costs e m w S sz)
    (hw : ∀ d, w' d ≤ n + w d) (hs : ∀ a, sz' a ≤ n + sz a) : Costs e m w' (n + S) sz' :=
  h.weaken (fun d => by have := hw d; omega) (by omega) fun a => by have := hs a; omega

theorem Costs.map (n : Nat) {m : DM α} {g : α → β} {w : Dec → Nat} {S : Nat} {sz : α → Nat} {sz' : β → Nat} (h : Costs e m w S sz)
    (hs : ∀ a, sz' (g a) ≤ n + sz a) : Costs e (m >>= fun a => Pure.pure (g a)) w (n + S) sz' := by
  have := h.bind (f := fun a => Pure.pure (g a)) (w2 := fun _ _ => 0) (S2 := n) (sz := sz') fun a =>
    Costs.pure _ (fun _ => by omega) (by have := hs a; omega)
  refine this.weaken (fun d => ?_) (by omega) fun a => by omega
  omega

/-- `n` more units of work, and a result larger by `n`. -/
theorem Costs.wrap (n : Nat) {m : DM α} {g : α → β} {w : Dec → Nat} {S : Nat} {sz : α → Nat} {sz' : β → Nat} (h : Costs e m w S sz)
    (hs : ∀ a, sz' (g a) ≤ n + sz a) : Costs e (m >>= fun a => Pure.pure (g a)) (fun d => n + w d) (n + S) sz' := by
  have h1 := h.bind (f := fun a => Pure.pure (g a)) (w2 := fun _ _ => n) (S2 := n) (sz := sz') fun a =>
    Costs.pure _ (fun _ => by omega) (by have := hs a; omega)
  intro d ho he
  obtain ⟨res, k, c, hr, hk, h2, h3⟩ := h1 d ho he
  obtain ⟨res', k', c', hr', hk', h2', h3'⟩ := h d ho he
  have hn : ∀ x, 1 ≤ x → n ≤ n * x := fun x hx => Nat.le_mul_of_pos_right _ hx
  refine ⟨res, k, c, hr, hk, ?_, ?_⟩
  · show n + w d ≤ _
    have := hn (d.rest.length + 1) (by omega)
    rw [Nat.add_mul]; omega
  · intro b hb
    obtain ⟨h4, h5⟩ := h3 b hb
    refine ⟨?_, by rw [Nat.add_comm n S]; exact h5⟩
    subst hb
    cases res' with
    | err x => rw [M.bind_err hr'] at hr; cases hr
    | panic => rw [M.bind_panic hr'] at hr; cases hr
    | ok a =>
      simp only [after, hr'] at h4
      show n + w d ≤ _
      rw [Nat.add_comm n S]; omega

/-- `currentFieldOpt` costs nothing. -/
theorem Costs.set {o : Order} {m : DM α} {w : Dec → Nat} {S : Nat} {sz : α → Nat} (h : Costs e m w S sz) :
    Costs e (setCurD o >>= fun _ => m) (fun d => w { d with cur := some o }) S sz := by
  intro d ho he
  obtain ⟨res, k, c, hr, hk, h1, h2⟩ := h { d with cur := some o } ho he
  refine ⟨res, k, c, ?_, hk, h1, h2⟩
  simp only [setCurD, M.bind_apply, M.modify_apply]
  rw [hr]; rfl

theorem after_set (o : Order) (d : Dec) (f : Unit → Dec → Nat) : after (setCurD o) d f = f () { d with cur := some o } := rfl

/-- A loop whose rounds each take a byte. -/
theorem Costs.repeat {m : DM α} {w : Dec → Nat} {S : Nat} {sz : α → Nat} (h : Costs e m w S sz)
    (ht : ∀ d a d', d.Ok → d.enc = e → m d = (.ok a, d') → d.pos < d'.pos) : ∀ n (d : Dec), d.Ok → d.enc = e →
    ∃ res k c, repeatM m n d = (res, d.to k c) ∧ k ≤ d.rest.length ∧ workTimes m w n d ≤ S * (d.rest.length + 1) ∧
      ∀ xs, res = .ok xs → workTimes m w n d ≤ S * k ∧ (xs.map sz).sum ≤ S * k ∧ n ≤ k
  | 0, d, _, _ => ⟨.ok [], 0, d.cur, by simp [repeatM, Dec.to], by omega, by simp [workTimes], by
      intro xs hx; cases hx; simp [workTimes]⟩
  | n + 1, d, ho, he => by
    obtain ⟨res, k, c, hr, hk, hw, hq⟩ := h d ho he
    unfold repeatM workTimes
    cases res with
    | panic =>
      refine ⟨.panic, k, c, by rw [M.bind_panic hr], hk, ?_, by simp⟩
      simp only [after, hr]; omega
    | err x =>
      refine ⟨.err x, k, c, by rw [M.bind_err hr], hk, ?_, by simp⟩
      simp only [after, hr]; omega
    | ok a =>
      obtain ⟨hq1, hq2⟩ := hq a rfl
      have hk0 : 1 ≤ k := by
        have := ht d a _ ho he hr
        simp only [Dec.to, Dec.adv] at this; omega
      rw [Nat.max_eq_right hk0] at hq1 hq2
      obtain ⟨res2, k2, c2, hr2, hk2, hw2, hq3⟩ := Costs.repeat h ht n (d.to k c) (Dec.to_ok (Dec.adv_ok ho hk)) he
      rw [to_rest_length ho] at hk2 hw2
      have hsum : S * k + S * (d.rest.length - k + 1) = S * (d.rest.length + 1) := by
        rw [← Nat.mul_add]; congr 1; omega
      cases res2 with
      | panic =>
        refine ⟨.panic, k + k2, c2, by rw [M.bind_ok hr, M.bind_panic hr2, Dec.to_to], by omega, ?_, by simp⟩
        simp only [after, hr]; omega
      | err x =>
        refine ⟨.err x, k + k2, c2, by rw [M.bind_ok hr, M.bind_err hr2, Dec.to_to], by omega, ?_, by simp⟩
        simp only [after, hr]; omega
      | ok xs =>
        obtain ⟨h3, h4, h5⟩ := hq3 xs rfl
        refine ⟨.ok (a :: xs), k + k2, c2, by rw [M.bind_ok hr, M.bind_ok hr2, Dec.to_to]; simp, by omega, ?_, ?_⟩
        · simp only [after, hr]; omega
        · intro ys hy; cases hy
          simp only [after, hr, List.map_cons, List.sum_cons]
          rw [Nat.mul_add]
          omega

theorem Costs.times {m : DM α} {w : Dec → Nat} {S : Nat} {sz : α → Nat} (h : Costs e m w S sz)
    (ht : ∀ d a d', d.Ok → d.enc = e → m d = (.ok a, d') → d.pos < d'.pos) (n : Nat) :
    Costs e (repeatM m n) (workTimes m w n) S fun xs => (xs.map sz).sum := by
  intro d ho he
  obtain ⟨res, k, c, hr, hk, h1, h2⟩ := h.repeat ht n d ho he
  refine ⟨res, k, c, hr, hk, h1, fun a ha => ?_⟩
  obtain ⟨h3, h4, -⟩ := h2 a ha
  have : S * k ≤ S * max 1 k := Nat.mul_le_mul_left _ (by omega)
  exact ⟨by omega, Nat.le_trans h4 this⟩

/-- A loop over a list. -/
theorem Costs.traverse {f : β → DM α} {w : β → Dec → Nat} {S : Nat} {sz : α → Nat} : ∀ ys : List β,
    (∀ y ∈ ys, Costs e (f y) (w y) S sz) →
    Costs e (traverseM f ys) (workEach f w ys) (ys.length * S) fun xs => (xs.map sz).sum
  | [], _ => Costs.pure _ (fun _ => by simp [workEach]) (by simp)
  | y :: ys, h => by
    have h1 := (h y (by simp)).bind (f := fun b => do let bs ← traverseM f ys; Pure.pure (b :: bs)) (w2 := fun _ => workEach f w ys)
      (S2 := ys.length * S) (sz := fun xs => (xs.map sz).sum) fun a => by
        have := (Costs.traverse ys fun z hz => h z (by simp [hz])).map (g := fun bs => a :: bs) 0
          (sz' := fun xs => (xs.map sz).sum - sz a) (by intro xs; simp)
        rwa [Nat.zero_add] at this
    rw [List.length_cons, Nat.add_mul, Nat.one_mul, Nat.add_comm]
    exact h1
end

/-! ### scalars -/
section
variable {e : Encoding}

theorem taken_to {α : Type} {m : DM α} {d : Dec} {res : Res α} {k : Nat} {c : Option Order} (h : m d = (res, d.to k c)) : taken m d = k := by
  simp only [taken, h, Dec.to, Dec.adv]; omega

/-- A primitive read whose result has at most three cells for each byte. -/
theorem Prim.scalar (hv : e.valid = true) {α : Type} {m : DM α} {g : α → Val} (h : Prim m)
    (hs : ∀ d a k, d.Ok → d.enc = e → m d = (.ok a, d.adv k) → cells (g a) ≤ 1 + 3 * k) :
    Costs e (m >>= fun a => Pure.pure (g a)) (fun d => 1 + taken (m >>= fun a => Pure.pure (g a)) d) 4 cells := by
  intro d ho he
  obtain ⟨res, k, hr, -, hk⟩ := h d ho (by rw [he]; exact hv)
  have hm : (m >>= fun a => Pure.pure (g a)) d = ((match res with
      | .ok a => .ok (g a)
      | .err x => .err x
      | .panic => .panic), d.to k d.cur) := by
    rw [← Dec.adv_eq_to]
    cases res
    · rw [M.bind_ok hr]; rfl
    · rw [M.bind_err hr]
    · rw [M.bind_panic hr]
  refine ⟨_, k, d.cur, hm, hk, ?_, ?_⟩
  · show 1 + taken _ d ≤ _
    rw [taken_to hm]; omega
  · intro v hv
    show 1 + taken _ d ≤ _ ∧ _
    rw [taken_to hm]
    cases res with
    | ok a =>
      cases hv
      have := hs d a k ho he hr
      omega
    | err x => cases hv
    | panic => cases hv

theorem Prim.small (hv : e.valid = true) {α : Type} {m : DM α} {g : α → Val} (h : Prim m) (hs : ∀ a, cells (g a) = 1) :
    Costs e (m >>= fun a => Pure.pure (g a)) (fun d => 1 + taken (m >>= fun a => Pure.pure (g a)) d) 4 cells :=
  h.scalar hv fun d a k _ _ _ => by rw [hs]; omega

theorem readByteSlice_length (hv : e.valid = true) {d : Dec} {a : Bytes} {k : Nat} (ho : d.Ok) (he : d.enc = e)
    (h : readByteSlice d = (.ok a, d.adv k)) : a.length ≤ k := by
  rw [readByteSlice_def] at h
  obtain ⟨res, j, hr, -, hj⟩ := readLength_prim d ho (by rw [he]; exact hv)
  cases res with
  | err x => rw [M.bind_err hr] at h; cases h
  | panic => rw [M.bind_panic hr] at h; cases h
  | ok n =>
    rw [M.bind_ok hr, sliceBody_eq (Dec.adv_ok ho hj)] at h
    split at h
    · cases h
    · simp only [Prod.mk.injEq, Res.ok.injEq, Dec.adv, Dec.mk.injEq] at h
      rw [← h.1, List.length_take]
      have := h.2.2.1
      omega

theorem readNBytes_length {d : Dec} {a : Bytes} {k : Nat} {n : Int} (ho : d.Ok) (h : readNBytes n d = (.ok a, d.adv k)) :
    (a.length : Int) = n ∧ a.length = k := by
  rw [readNBytes_eq ho] at h
  split at h
  · simp only [Prod.mk.injEq, Res.ok.injEq, Dec.adv] at h
    have h2 := congrArg Dec.pos h.2
    simp only [] at h2
    rw [← h.1]; simp; omega
  · split at h
    · cases h
    · split at h
      · cases h
      · simp only [Prod.mk.injEq, Res.ok.injEq, Dec.adv] at h
        have h2 := congrArg Dec.pos h.2
        simp only [] at h2
        rw [← h.1, List.length_take]; omega

theorem fixUtf8_length (s : Bytes) : (fixUtf8 s).length ≤ 3 * s.length := by
  have key : ∀ fuel s, s.length ≤ fuel → (fixUtf8Aux fuel s).length ≤ 3 * s.length := by
    intro fuel
    induction fuel with
    | zero => intro s _; simp [fixUtf8Aux]
    | succ f ih =>
      intro s hs
      cases s with
      | nil => simp [fixUtf8Aux]
      | cons b r =>
        rw [fixUtf8Aux]
        split
        · rename_i w hw
          have hw1 : 1 ≤ w := by
            cases w with
            | zero =>
              obtain ⟨u, -, -, h0⟩ := runeWidth_sound hw
              exact absurd (List.eq_nil_of_length_eq_zero h0.symm) (utf8_ne_nil u)
            | succ w => omega
          have := ih ((b :: r).drop w) (by rw [List.length_drop]; simp only [List.length_cons] at hs ⊢; omega)
          rw [List.length_append, List.length_take]
          rw [List.length_drop] at this
          omega
        · have := ih r (by simp only [List.length_cons] at hs; omega)
          simp only [List.length_append, replacement, List.length_cons, List.length_nil]
          omega
  exact key _ s (Nat.le_refl _)

theorem costs_lib (hv : e.valid = true) (l : Lib) :
    Costs e (unmarshalLib l l.zero) (fun d => 1 + taken (unmarshalLib l l.zero) d) 4 cells := by
  have get : ∀ (f : Option Order → DM Val), (∀ c, Costs e (f c) (fun d => 1 + taken (f c) d) 4 cells) →
      Costs e (M.get >>= fun d : Dec => f d.cur) (fun d => 1 + taken (M.get >>= fun d : Dec => f d.cur) d) 4 cells := by
    intro f h d ho he
    exact h d.cur d ho he
  have opt : ∀ (f : Order → DM Val), (∀ o, Costs e (f o) (fun d => 1 + taken (f o) d) 4 cells) →
      Costs e (M.get >>= fun d : Dec => match d.cur with
        | none => M.panic
        | some o => f o) (fun d => 1 + taken (M.get >>= fun d : Dec => match d.cur with
        | none => M.panic
        | some o => f o) d) 4 cells := by
    intro f h d ho he
    cases hc : d.cur with
    | none =>
      refine ⟨.panic, 0, d.cur, ?_, by omega, ?_, by simp⟩
      · rw [show d.to 0 d.cur = d by simp [Dec.to]]
        simp [M.bind_apply, M.get_apply, hc]
      · simp [taken, M.bind_apply, M.get_apply, hc]; omega
    | some o =>
      have := h o d ho he
      simpa [taken, M.bind_apply, M.get_apply, hc] using this
  cases l <;> simp only [unmarshalLib]
  case safeString =>
    refine safeReadUTF8String_prim.scalar hv fun d a k ho he hr => ?_
    have : ∃ b, readByteSlice d = (.ok b, d.adv k) ∧ a = fixUtf8 b := by
      unfold safeReadUTF8String at hr
      cases hb : readByteSlice d with
      | mk res d1 =>
        cases res with
        | ok b => rw [M.bind_ok hb] at hr; cases hr; exact ⟨b, rfl, rfl⟩
        | err x => rw [M.bind_err hb] at hr; cases hr
        | panic => rw [M.bind_panic hb] at hr; cases hr
    obtain ⟨b, hb, rfl⟩ := this
    have h1 := readByteSlice_length hv ho he hb
    have h2 := fixUtf8_length b
    simp only [cells]; omega
  case bool => exact readBool_prim.small hv fun _ => rfl
  case hexBytes =>
    refine readByteSlice_prim.scalar hv fun d a k ho he hr => ?_
    have h1 := readByteSlice_length hv ho he hr
    simp only [cells, Option.getD_some]; omega
  case varint16 => exact readVarint16_prim.small hv fun _ => rfl
  case varuint16 => exact readUvarint16_prim.small hv fun _ => rfl
  case varuint32 => exact readUvarint64_prim.small hv fun _ => rfl
  case varint32 => exact readVarint32_prim.small hv fun _ => rfl
  case jsonFloat64 => exact opt (fun o => readFloat64 o >>= fun n => Pure.pure (.float n)) fun o => (readFloat64_prim o).small hv fun _ => rfl
  case int64 => exact opt (fun o => readInt64 o >>= fun n => Pure.pure (.int n)) fun o => (readInt64_prim o).small hv fun _ => rfl
  case uint64 => exact opt (fun o => readUint64 o >>= fun n => Pure.pure (.uint n)) fun o => (readUint64_prim o).small hv fun _ => rfl
  case uint128 => exact get (fun c => readUint128 (order128 c _) >>= fun r => Pure.pure (.u128 r.1 r.2 none)) fun c =>
      (readUint128_prim _).small hv fun _ => rfl
  case int128 => exact get (fun c => readInt128 (order128 c _) >>= fun r => Pure.pure (.u128 r.1 r.2 none)) fun c =>
      (readUint128_prim _).small hv fun _ => rfl
  case float128 => exact get (fun c => readFloat128 (order128 c _) >>= fun r => Pure.pure (.u128 r.1 r.2 none)) fun c =>
      (readUint128_prim _).small hv fun _ => rfl
  case emptyVariant => exact Costs.pure _ (fun d => by simp [taken]) (by simp [Lib.zero, cells, cellsAll])

theorem costs_plain (hv : e.valid = true) (k : Kind) (o : Opt)
    (hk : k = .bool ∨ (∃ w, k = .uint w) ∨ (∃ w, k = .int w) ∨ k = .f32 ∨ k = .f64 ∨ k = .string) :
    Costs e (decPlain e k o) (fun d => 1 + taken (decPlain e k o) d) 4 cells := by
  unfold decPlain
  generalize (if e = .borsh then Order.le else o.order) = ord
  rcases hk with rfl | ⟨w, rfl⟩ | ⟨w, rfl⟩ | rfl | rfl | rfl
  · exact readBool_prim.small hv fun _ => rfl
  · cases w
    · exact readByte_prim.small hv fun _ => rfl
    · exact (readUint16_prim _).small hv fun _ => rfl
    · exact (readUint32_prim _).small hv fun _ => rfl
    · exact (readUint64_prim _).small hv fun _ => rfl
  · cases w
    · exact readInt8_prim.small hv fun _ => rfl
    · exact (readInt16_prim _).small hv fun _ => rfl
    · exact (readInt32_prim _).small hv fun _ => rfl
    · exact (readInt64_prim _).small hv fun _ => rfl
  · exact (readFloat32_prim _).small hv fun _ => rfl
  · exact (readFloat64_prim _).small hv fun _ => rfl
  · simp only [decScalar]
    by_cases hb : e = .bin
    · rw [if_pos hb]
      refine readRustString_prim.scalar hv fun d a k ho he hr => ?_
      unfold readRustString at hr
      obtain ⟨res, j, hj, -, hjl⟩ := readUint64_prim .le d ho (by rw [he]; exact hv)
      cases res with
      | err x => rw [M.bind_err hj] at hr; cases hr
      | panic => rw [M.bind_panic hj] at hr; cases hr
      | ok n =>
        rw [M.bind_ok hj] at hr
        split at hr
        · cases hr
        · obtain ⟨res2, i, hi, -, hil⟩ := readNBytes_prim n (d.adv j) (Dec.adv_ok ho hjl) (by rw [Dec.adv_enc, he]; exact hv)
          rw [hi] at hr
          cases res2 <;> simp only [Prod.mk.injEq, reduceCtorEq, false_and, Res.ok.injEq] at hr
          obtain ⟨rfl, hr⟩ := hr
          have h2 := (readNBytes_length (Dec.adv_ok ho hjl) hi).2
          have h3 := congrArg Dec.pos hr
          simp only [Dec.adv] at h3
          simp only [cells]; omega
    · rw [if_neg hb]
      refine readString_prim.scalar hv fun d a k ho he hr => ?_
      have h1 := readByteSlice_length hv ho he hr
      simp only [cells]; omega
end

/-! ### containers -/
section
variable {e : Encoding}

theorem cellsAll_sum (xs : List Val) : cellsAll xs = (xs.map cells).sum := by
  induction xs with
  | nil => rfl
  | cons x xs ih => simp [cellsAll, ih]

theorem cellsMap_sum (xs : List (Val × Val)) : cellsMap xs = (xs.map fun x => cells x.1 + cells x.2).sum := by
  induction xs with
  | nil => rfl
  | cons x xs ih => simp [cellsMap, ih]

theorem setEntry_cells (k : Ty) (x : Val × Val) (m : List (Val × Val)) :
    cellsMap (setEntry k x m) ≤ cellsMap m + (cells x.1 + cells x.2) := by
  induction m with
  | nil => simp [setEntry, cellsMap]
  | cons y ys ih =>
    unfold setEntry
    split
    · simp only [cellsMap]; omega
    · simp only [cellsMap]; omega

theorem foldEntries_cells (k : Ty) (xs m : List (Val × Val)) :
    cellsMap (xs.foldl (fun m x => setEntry k x m) m) ≤ cellsMap m + cellsMap xs := by
  induction xs generalizing m with
  | nil => simp [cellsMap]
  | cons x xs ih =>
    rw [List.foldl_cons]
    have h1 := ih (setEntry k x m)
    have h2 := setEntry_cells k x m
    simp only [cellsMap]
    omega

theorem lib_zero_cells (l : Lib) : cells l.zero ≤ 4 := by
  cases l <;> simp [Lib.zero, cells, cellsAll]

mutual
theorem zero_cells : (t : Ty) → cells t.zero ≤ weight t
  | .bool | .uint _ _ | .int _ _ | .borshEnum | .f32 | .f64 | .iface | .plainInt | .plainUint | .other => by
    simp [Ty.zero, cells, weight]
  | .str => by simp [Ty.zero, cells, weight]
  | .lib l => by simpa [Ty.zero, weight] using lib_zero_cells l
  | .ptr _ | .slice _ | .map _ _ => by simp [Ty.zero, cells, weight]
  | .array n t => by
    simp only [Ty.zero, cells, weight, cellsAll_sum, List.map_replicate, List.sum_replicate_nat]
    have := Nat.mul_le_mul_left n (zero_cells t)
    omega
  | .struct fs => by
    have := zeros_cells fs
    simp only [Ty.zero, cells, weight]; omega
termination_by structural t => t
theorem zeros_cells : (fs : Fields) → cellsAll fs.zeros ≤ weights fs
  | .nil => by simp [Fields.zeros, cellsAll]
  | .cons _ t fs => by
    have h1 := zero_cells t
    have h2 := zeros_cells fs
    simp only [Fields.zeros, cellsAll, weights]; omega
termination_by structural fs => fs
end

theorem weight_pos (t : Ty) : 1 ≤ weight t := Nat.le_trans (by cases t <;> simp [weight] <;> omega) (Nat.le_refl _)

theorem absentVal_cells : (t : Ty) → cells (absentVal t t.zero) ≤ weight t
  | .ptr (.ptr t) => by simp [Ty.zero, absentVal, cells, weight]
  | .bool | .uint _ _ | .int _ _ | .borshEnum | .f32 | .f64 | .str | .lib _ | .slice _ | .array _ _ | .map _ _ | .struct _
  | .iface | .plainInt | .plainUint | .other => by simp only [absentVal]; exact zero_cells _
  | .ptr .bool | .ptr (.uint _ _) | .ptr (.int _ _) | .ptr .borshEnum | .ptr .f32 | .ptr .f64 | .ptr .str | .ptr (.lib _)
  | .ptr (.slice _) | .ptr (.array _ _) | .ptr (.map _ _) | .ptr (.struct _) | .ptr .iface | .ptr .plainInt | .ptr .plainUint
  | .ptr .other => by simp only [absentVal]; exact zero_cells _

theorem absentBase_cells : (t : Ty) → cells (absentBase t) ≤ weight t
  | .ptr t => by
    have := absentBase_cells t
    simp only [absentBase, cells, weight]; omega
  | .bool | .uint _ _ | .int _ _ | .borshEnum | .f32 | .f64 | .str | .lib _ | .slice _ | .array _ _ | .map _ _ | .struct _
  | .iface | .plainInt | .plainUint | .other => by simp only [absentBase]; exact zero_cells _

theorem uints_cells (ns : List Nat) : cellsAll (ns.map .uint) = ns.length := by
  induction ns with
  | nil => rfl
  | cons n ns ih => simp only [List.map_cons, cellsAll, cells, ih, List.length_cons]; omega

theorem byte_cells (b : Bytes) : cellsAll (b.map fun x => .uint x.toNat) = b.length := by
  induction b with
  | nil => rfl
  | cons n ns ih => simp only [List.map_cons, cellsAll, cells, ih, List.length_cons]; omega

/-- Every success takes a byte. -/
def Bites {α : Type} (e : Encoding) (m : DM α) : Prop := ∀ d a d', d.Ok → d.enc = e → m d = (.ok a, d') → d.pos < d'.pos

theorem Took.bites {α : Type} {m : DM α} {P : Bytes → α → Prop} (h : Took e m P) (hP : ∀ bs a, P bs a → bs ≠ []) : Bites e m := by
  intro d a d' ho he hr
  obtain ⟨bs, tail, -, rfl, hp⟩ := h d ho he a d' hr
  have := List.length_pos_iff.mpr (hP _ _ hp)
  simp only [Dec.adv]; omega

theorem fixed_bites {m : DM Nat} {o : Order} {k N : Nat} (h : Took e m fun bs n => n < N ∧ bs = fixed o k n) (hk : 0 < k) : Bites e m :=
  h.bites fun bs a hb h0 => by
    have := congrArg List.length (hb.2.symm.trans h0)
    rw [fixed_length] at this
    simp at this; omega

/-- The bulk loops. -/
theorem costs_uints (hv : e.valid = true) (l : Int) (w : Width) : Costs e (readUints l w) (workUints l w) 1 cellsAll := by
  intro d ho he
  have hrem := d.rest_length ho
  by_cases hl : l * w.bytes > d.remaining
  · refine ⟨.err .eof, 0, d.cur, ?_, by omega, ?_, by simp⟩
    · simp [readUints, M.bind_apply, M.get_apply, if_pos hl, Dec.to]
    · simp [workUints, if_pos hl]
  · have hb : l.toNat ≤ d.rest.length := by
      have : (l : Int) ≤ l * w.bytes ∨ l < 0 := by cases w <;> simp only [Width.bytes] <;> omega
      omega
    have hword : ∀ r : DM Nat, Prim r → (∀ d a d', d.Ok → d.enc = e → r d = (.ok a, d') → d.pos < d'.pos) →
        ∃ res k c, ((if l < 0 then M.panic else do
          let ns ← repeatM r l.toNat
          Pure.pure (ns.map Val.uint)) : DM (List Val)) d = (res, d.to k c) ∧ k ≤ d.rest.length ∧
          ∀ a, res = .ok a → l.toNat ≤ k ∧ cellsAll a ≤ k := by
      intro r hr ht
      by_cases h0 : l < 0
      · rw [if_pos h0]
        exact ⟨.panic, 0, d.cur, by simp [Dec.to], by omega, by simp⟩
      · rw [if_neg h0]
        obtain ⟨res, k, c, h1, h2, -, h3⟩ := (hr.free hv).repeat (e := e) ht l.toNat d ho he
        have hlen : ∀ (n : Nat) (d d' : Dec) (xs : List Nat), repeatM r n d = (.ok xs, d') → xs.length = n := by
          intro n
          induction n with
          | zero => intro d d' xs h; cases h; rfl
          | succ n ih =>
            intro d d' xs h
            unfold repeatM at h
            cases ha : r d with
            | mk res d1 =>
              cases res with
              | err x => rw [M.bind_err ha] at h; cases h
              | panic => rw [M.bind_panic ha] at h; cases h
              | ok a =>
                rw [M.bind_ok ha] at h
                cases hb : repeatM r n d1 with
                | mk res d2 =>
                  cases res with
                  | err x => rw [M.bind_err hb] at h; cases h
                  | panic => rw [M.bind_panic hb] at h; cases h
                  | ok bs =>
                    rw [M.bind_ok hb] at h
                    cases h
                    rw [List.length_cons, ih _ _ _ hb]
        cases res with
        | err x => exact ⟨.err x, k, c, by rw [M.bind_err h1], h2, by simp⟩
        | panic => exact ⟨.panic, k, c, by rw [M.bind_panic h1], h2, by simp⟩
        | ok ns =>
          refine ⟨.ok (ns.map .uint), k, c, by rw [M.bind_ok h1]; rfl, h2, ?_⟩
          intro a ha; cases ha
          rw [uints_cells, hlen _ _ _ _ h1]
          have := (h3 ns rfl).2.2
          omega
    have main : ∃ res k c, readUints l w d = (res, d.to k c) ∧ k ≤ d.rest.length ∧
          ∀ a, res = .ok a → l.toNat ≤ k ∧ cellsAll a ≤ k := by
      unfold readUints
      rw [M.bind_apply, M.get_apply]
      simp only [if_neg hl]
      cases w with
      | w8 =>
        obtain ⟨res, k, hr, -, hk⟩ := readNBytes_prim l d ho (by rw [he]; exact hv)
        simp only []
        cases res with
        | err x => exact ⟨.err x, k, d.cur, by rw [M.bind_err hr]; rfl, hk, by simp⟩
        | panic => exact ⟨.panic, k, d.cur, by rw [M.bind_panic hr]; rfl, hk, by simp⟩
        | ok b =>
          refine ⟨.ok (b.map fun x => .uint x.toNat), k, d.cur, by rw [M.bind_ok hr]; rfl, hk, ?_⟩
          intro a ha; cases ha
          have := readNBytes_length ho hr
          rw [byte_cells]; omega
      | w16 => exact hword _ (readUint16_prim .le) (fixed_bites (readUint16_took .le) (by decide))
      | w32 => exact hword _ (readUint32_prim .le) (fixed_bites (readUint32_took .le) (by decide))
      | w64 => exact hword _ (readUint64_prim .le) (fixed_bites (readUint64_took .le) (by decide))
    obtain ⟨res, k, c, h1, h2, h3⟩ := main
    refine ⟨res, k, c, h1, h2, ?_, ?_⟩
    · simp only [workUints, if_neg hl]; omega
    · intro a ha
      have := h3 a ha
      simp only [workUints, if_neg hl]; omega

theorem costs_field (hv : e.valid = true) (t : Ty) (o : Opt) (core : DM Val) (w : Dec → Nat) {S : Nat}
    (h : Costs e core w S cells) (hS : weight t ≤ S) :
    Costs e (decField e t o t.zero core) (workField e t o w) S cells := by
  have zero : ∀ v, cells v ≤ weight t → Costs e (Pure.pure v) (fun _ => 0) S cells := fun v hv =>
    Costs.pure _ (fun _ => Nat.zero_le _) (Nat.le_trans hv hS)
  have pan : Costs e (M.panic : DM Val) (fun _ => 0) S cells := Costs.panic fun _ => Nat.zero_le _
  have ite : ∀ (b : Bool) (v : Val), cells v ≤ weight t →
      Costs e (if b = true then core else Pure.pure v) (fun d => if b = true then w d else 0) S cells := by
    intro b v hv
    cases b
    · simpa using zero v hv
    · simpa using h
  have copt : ∀ v, cells v ≤ weight t → Costs e (readCOption >>= fun present => if present = true then core else Pure.pure v)
      (fun d => after readCOption d fun present d => if present = true then w d else 0) S cells := fun v hv' =>
    Costs.step hv readCOption_prim fun b => ite b v hv'
  unfold decField
  have goal : Costs e (if o.optional = true then
        if t.asLib.isSome = true then M.panic
        else do
          let present ← readFlag e
          if present = true then
            if e = .borsh ∧ o.coptional = true then
              if t.baseLib = true then M.panic
              else do
                let present ← readCOption
                if present = true then core else Pure.pure (absentBase t)
            else core
          else Pure.pure (absentVal t t.zero)
      else if e = .borsh ∧ o.coptional = true then
        if t.asLib.isSome = true then M.panic
        else do
          let present ← readCOption
          if present = true then core else Pure.pure (absentVal t t.zero)
      else core)
      (fun d => if o.optional = true then
          if t.asLib.isSome = true then 0
          else after (readFlag e) d fun present d =>
            if present = true then
              if e = .borsh ∧ o.coptional = true then
                if t.baseLib = true then 0
                else after readCOption d fun present d => if present = true then w d else 0
              else w d
            else 0
        else if e = .borsh ∧ o.coptional = true then
          if t.asLib.isSome = true then 0
          else after readCOption d fun present d => if present = true then w d else 0
        else w d) S cells := by
    by_cases h1 : o.optional = true
    · simp only [if_pos h1]
      by_cases h2 : t.asLib.isSome = true
      · simp only [if_pos h2]; exact pan
      · simp only [if_neg h2]
        refine Costs.step hv (readFlag_prim hv) fun b => ?_
        cases b
        · simpa using zero _ (absentVal_cells t)
        · simp only [if_true]
          by_cases h3 : e = .borsh ∧ o.coptional = true
          · simp only [if_pos h3]
            by_cases h4 : t.baseLib = true
            · simp only [if_pos h4]; exact pan
            · simp only [if_neg h4]; exact copt _ (absentBase_cells t)
          · simp only [if_neg h3]; exact h
    · simp only [if_neg h1]
      by_cases h3 : e = .borsh ∧ o.coptional = true
      · simp only [if_pos h3]
        by_cases h2 : t.asLib.isSome = true
        · simp only [if_pos h2]; exact pan
        · simp only [if_neg h2]; exact copt _ (absentVal_cells t)
      · simp only [if_neg h3]; exact h
  exact goal.set (o := o.order)

theorem recordSize_costs (m : FieldMeta) (t : Ty) (v : Val) (sm : List (Bytes × Int)) :
    Costs e (recordSize m t v sm) (fun _ => 0) 0 (fun _ => 0) := by
  unfold recordSize
  split
  · exact Costs.pure _ (fun _ => Nat.le_refl _) (Nat.le_refl _)
  · cases sizeofVal t.kind v with
    | ok n =>
      exact Costs.pure (e := e) ((m.tag.sizeOf, n) :: sm) (fun _ => Nat.le_refl _) (Nat.le_refl _)
    | err x => exact Costs.err (e := e) x fun _ => Nat.le_refl _
    | panic => exact Costs.panic (e := e) fun _ => Nat.le_refl _

theorem extensionEnds_prim (m : FieldMeta) : Prim (extensionEnds m) := by
  unfold extensionEnds
  split
  · intro d ho _
    refine ⟨.ok (d.rest.length == 0), 0, ?_, by simp, by omega⟩
    simp only [noBytesLeft, M.bind_apply, restM]
    rw [if_pos (show 0 ≤ d.pos ∧ d.pos ≤ d.data.length from ho)]; simp [Dec.rest]
  · exact Prim.pure _

theorem decode_bites (hv : e.valid = true) {t : Ty} (h : Takes e t) : Bites e (do setCurD .le; decCore e t {} t.zero) := by
  intro d a d' ho he hr
  refine h d a d' ho.1 ho.2 he ?_
  unfold decode
  rw [M.bind_apply, M.get_apply]
  simp only []
  rw [if_neg (by rw [he]; intro h0; rw [h0] at hv; cases hv), he]
  exact hr

mutual
theorem costs_core (hv : e.valid = true) : (t : Ty) → (o : Opt) → Feeds e t →
    Costs e (decCore e t o t.zero) (workCore e t o t.zero) (weight t) cells
  | .lib l, o, _ => costs_lib hv l
  | .ptr t, o, h => by
    have := (costs_core hv t o h).wrap (g := fun x => Val.ptr (some x)) 1 (sz' := cells) fun a => by simp [cells]
    exact this
  | .slice t, o, h => by
    obtain ⟨ht, hf⟩ := h
    have body : ∀ l : Int, Costs e (if e = .borsh ∧ l = 0 then Pure.pure (Val.seq none) else do
        let d ← M.get
        if l > d.remaining then M.err .eof
        else
          match t.uintKind with
          | some w => do
            let xs ← readUints l w
            Pure.pure (Val.seq (some xs))
          | none => do
            let xs ← repeatM (do setCurD .le; decCore e t {} t.zero) l.toNat
            Pure.pure (Val.seq (some xs)))
        (fun d => if e = .borsh ∧ l = 0 then 0
          else if l > d.remaining then 0
          else
            match t.uintKind with
            | some w => workUints l w d
            | none => workTimes (do setCurD .le; decCore e t {} t.zero)
                (fun d => workCore e t {} t.zero { d with cur := some .le }) l.toNat d)
        (weight t) (fun v => cells v - 1) := by
      intro l
      by_cases h0 : e = .borsh ∧ l = 0
      · simp only [if_pos h0]
        exact Costs.pure _ (fun _ => Nat.zero_le _) (by simp [cells])
      · simp only [if_neg h0]
        intro d ho he
        by_cases hl : l > d.remaining
        · refine ⟨.err .eof, 0, d.cur, ?_, by omega, ?_, by simp⟩
          · rw [M.bind_apply, M.get_apply]; simp [if_pos hl, Dec.to]
          · simp [if_pos hl]
        · have hc : Costs e (match t.uintKind with
              | some w => do
                let xs ← readUints l w
                Pure.pure (Val.seq (some xs))
              | none => do
                let xs ← repeatM (do setCurD .le; decCore e t {} t.zero) l.toNat
                Pure.pure (Val.seq (some xs)))
              (fun d => match t.uintKind with
                | some w => workUints l w d
                | none => workTimes (do setCurD .le; decCore e t {} t.zero)
                    (fun d => workCore e t {} t.zero { d with cur := some .le }) l.toNat d) (weight t) (fun v => cells v - 1) := by
            cases hu : t.uintKind with
            | some w =>
              have h1 := (costs_uints hv l w).map (g := fun xs => Val.seq (some xs)) (sz' := fun v => cells v - 1) 0 fun a => by
                simp [cells]
              exact h1.weaken (fun d => Nat.le_add_right _ _) (by have := weight_pos t; omega) fun a => by omega
            | none =>
              have h1 := (((costs_core hv t {} hf).set (o := .le)).times (decode_bites hv ht) l.toNat).map
                (g := fun xs => Val.seq (some xs)) (sz' := fun v => cells v - 1) 0 fun a => by simp [cells, cellsAll_sum]
              rw [Nat.zero_add] at h1
              exact h1
          have := hc d ho he
          rw [M.bind_apply, M.get_apply]
          simpa only [if_neg hl] using this
    simp only [decCore, workCore, Ty.zero, weight, sliceLen]
    refine Costs.more 1 (w := fun d => after (sliceLen e o) d fun l d => if e = .borsh ∧ l = 0 then 0
          else if l > d.remaining then 0
          else
            match t.uintKind with
            | some w => workUints l w d
            | none => workTimes (do setCurD .le; decCore e t {} t.zero)
                (fun d => workCore e t {} t.zero { d with cur := some .le }) l.toNat d) (sz := fun v => cells v - 1) ?_
      (fun d => Nat.le_refl _) (fun v => by omega)
    unfold sliceLen
    cases o.sizeOf with
    | some s => exact body s
    | none =>
      have h1 := Costs.step hv (readSeqLen_prim hv) fun n : Nat => body n
      refine h1.weaken (fun d => ?_) (Nat.le_refl _) (fun v => by omega)
      simp only [after, M.bind_apply]
      cases hr : readSeqLen e d with
      | mk res d1 => cases res <;> simp
  | .array n t, o, h => by
    simp only [decCore, workCore, Ty.zero, Val.elems, weight]
    cases hu : t.uintKind with
    | some w =>
      simp only []
      have h1 := (costs_uints hv n w).wrap (g := fun xs => Val.arr xs) 1 (sz' := cells) fun a => by simp [cells]
      exact h1.weaken (fun d => Nat.le_add_right _ _) (by omega) fun a => Nat.le_add_right _ _
    | none =>
      simp only []
      have h1 := Costs.traverse (List.replicate n t.zero) (f := fun x => do setCurD .le; decCore e t {} x)
        (w := fun x d => workCore e t {} x { d with cur := some .le }) (S := weight t) (sz := cells) (e := e) (by
          intro y hy
          rw [(List.mem_replicate.mp hy).2]
          exact (costs_core hv t {} h).set)
      rw [List.length_replicate] at h1
      have h2 := h1.wrap (g := fun xs => Val.arr xs) 1 (sz' := cells) fun a => by simp [cells, cellsAll_sum]
      exact h2.weaken (fun d => Nat.le_add_right _ _) (by omega) fun a => Nat.le_add_right _ _
  | .map k t, o, h => by
    obtain ⟨ht, hk, hf⟩ := h
    have pair := ((costs_core hv k {} hk).bind (f := fun x => do
        setCurD .le
        let y ← decCore e t {} t.zero
        Pure.pure (x, y)) (w2 := fun _ d => workCore e t {} t.zero { d with cur := some .le }) (S2 := weight t)
      (sz := fun p : Val × Val => cells p.1 + cells p.2) fun x => by
        have h1 := (costs_core hv t {} hf).map (g := fun y => (x, y)) (sz' := fun p : Val × Val => cells p.1 + cells p.2 - cells x) 0
          fun a => by simp
        rw [Nat.zero_add] at h1
        exact h1.set).set (o := .le)
    have bites : Bites e (do
        setCurD .le
        let x ← decCore e k {} k.zero
        setCurD .le
        let y ← decCore e t {} t.zero
        Pure.pure (x, y)) := by
      intro d p d' ho he hr
      obtain ⟨res, i, c, h1, h2, -, -⟩ := ((costs_core hv k {} hk).set (o := .le)) d ho he
      have e1 : (do
          setCurD .le
          let x ← decCore e k {} k.zero
          setCurD .le
          let y ← decCore e t {} t.zero
          Pure.pure (x, y) : DM (Val × Val)) d = ((do setCurD .le; decCore e k {} k.zero) >>= fun x => do
          setCurD .le
          let y ← decCore e t {} t.zero
          Pure.pure (x, y) : DM (Val × Val)) d := rfl
      rw [e1] at hr
      cases res with
      | err x => rw [M.bind_err h1] at hr; cases hr
      | panic => rw [M.bind_panic h1] at hr; cases hr
      | ok x =>
        rw [M.bind_ok h1] at hr
        have ho' := Dec.to_ok (c := c) (Dec.adv_ok ho h2)
        obtain ⟨res2, j, c2, h3, h4, -, -⟩ := ((costs_core hv t {} hf).set (o := .le)) (d.to i c) ho' he
        have e2 : (do
            setCurD .le
            let y ← decCore e t {} t.zero
            Pure.pure (x, y) : DM (Val × Val)) (d.to i c) = ((do setCurD .le; decCore e t {} t.zero) >>= fun y =>
            Pure.pure (x, y) : DM (Val × Val)) (d.to i c) := rfl
        rw [e2] at hr
        cases res2 with
        | err x => rw [M.bind_err h3] at hr; cases hr
        | panic => rw [M.bind_panic h3] at hr; cases hr
        | ok y =>
          rw [M.bind_ok h3, Dec.to_to] at hr
          cases hr
          rcases ht with ht | ht
          · have := decode_bites hv ht d x _ ho he h1
            simp only [Dec.to, Dec.adv] at this ⊢; omega
          · have := decode_bites hv ht _ y _ ho' he h3
            simp only [Dec.to, Dec.adv] at this ⊢; omega
    have body : ∀ l : Nat, Costs e (if l = 0 then Pure.pure (Val.map none) else do
        let xs ← repeatM (do
          setCurD .le
          let x ← decCore e k {} k.zero
          setCurD .le
          let y ← decCore e t {} t.zero
          Pure.pure (x, y)) l
        Pure.pure (Val.map (some (xs.foldl (fun m x => setEntry k x m) []))))
        (fun d => workTimes (do
          setCurD .le
          let x ← decCore e k {} k.zero
          setCurD .le
          let y ← decCore e t {} t.zero
          Pure.pure (x, y)) (fun d => workCore e k {} k.zero { d with cur := some .le } +
          after (do setCurD .le; decCore e k {} k.zero) d fun _ d => workCore e t {} t.zero { d with cur := some .le }) l d)
        (weight k + weight t) (fun v => cells v - 1) := by
      intro l
      by_cases h0 : l = 0
      · simp only [if_pos h0]
        subst h0
        exact Costs.pure _ (fun _ => Nat.zero_le _) (by simp [cells])
      · simp only [if_neg h0]
        have h1 := (pair.times bites l).map (g := fun xs => Val.map (some (xs.foldl (fun m x => setEntry k x m) [])))
          (sz' := fun v => cells v - 1) 0 fun xs => by
            have := foldEntries_cells k xs []
            simp only [cells, cellsMap_sum xs] at this ⊢
            simp only [cellsMap] at this
            omega
        rw [Nat.zero_add] at h1
        exact h1
    simp only [decCore, workCore, Ty.zero, weight]
    exact (Costs.step hv (readSeqLen_prim hv) body).more 1 (fun d => Nat.le_refl _) (fun v => by omega)
  | .struct fs, o, h => by
    simp only [decCore, workCore, Ty.zero, Val.fields, weight, decStruct]
    by_cases hen : e = .borsh ∧ fs.isEnum = true
    · simp only [if_pos hen]
      have h1 := Costs.step (e := e) (w2 := fun tag d => if tag + 1 ≥ fs.length then 0 else workNth e fs (tag + 1) fs.zeros d)
        (f := fun tag => if tag + 1 ≥ fs.length then M.err .enumTooLarge else do
          let vs ← decNth e fs (tag + 1) fs.zeros
          Pure.pure (Val.struct (.uint tag :: vs.tail))) (S := 1 + weights fs) (sz := fun v => cells v - 1) hv readUint8_prim fun tag => by
          by_cases hlt : tag + 1 ≥ fs.length
          · simp only [if_pos hlt]; exact Costs.err _ fun _ => Nat.zero_le _
          · simp only [if_neg hlt]
            refine (costs_nth hv fs (tag + 1) h).map 1 fun vs => ?_
            cases vs <;> simp only [cells, cellsAll, List.tail] <;> omega
      rw [show 2 + weights fs = 1 + (1 + weights fs) by omega]
      exact h1.more 1 (fun d => Nat.le_refl _) fun a => by omega
    · simp only [if_neg hen]
      have h1 := (costs_fields hv fs [] false h).wrap (g := fun vs => Val.struct vs) 1 (sz' := cells) fun a => by simp [cells]
      exact h1.weaken (fun d => Nat.le_add_right _ _) (by omega) fun a => Nat.le_add_right _ _
  | .iface, _, _ => Costs.pure _ (fun d => by simp [workCore, weight]) (by simp [Ty.zero, cells, weight])
  | .bool, o, _ => costs_plain hv .bool o (by simp)
  | .uint w _, o, _ => costs_plain hv (.uint w) o (by simp)
  | .int w _, o, _ => costs_plain hv (.int w) o (by simp)
  | .borshEnum, o, _ => costs_plain hv (.uint .w8) o (by simp)
  | .f32, o, _ => costs_plain hv .f32 o (by simp)
  | .f64, o, _ => costs_plain hv .f64 o (by simp)
  | .str, o, _ => costs_plain hv .string o (by simp)
  | .plainInt, _, _ | .plainUint, _, _ | .other, _, _ => Costs.err _ (fun d => by simp [workCore, weight])
termination_by structural t => t
theorem costs_fields (hv : e.valid = true) : (fs : Fields) → (sm : List (Bytes × Int)) → (seen : Bool) → FeedsAll e fs →
    Costs e (decFields e fs sm seen fs.zeros) (workFields e fs sm seen fs.zeros) (weights fs) cellsAll
  | .nil, _, _, _ => Costs.pure _ (fun d => by simp [workFields]) (by simp [cellsAll])
  | .cons m t fs, sm, seen, h => by
    simp only [decFields, workFields, Fields.zeros, weights]
    have keep : ∀ sm seen, Costs e (do
        let rest ← decFields e fs sm seen fs.zeros
        Pure.pure (t.zero :: rest)) (fun d => workFields e fs sm seen fs.zeros d) (weight t + weights fs) cellsAll := fun sm seen =>
      (costs_fields hv fs sm seen h.2).map (weight t) fun vs => by
        have := zero_cells t
        simp only [cellsAll]; omega
    refine Costs.more 1 (w := fun d => if m.tag.skip = true then workFields e fs sm seen fs.zeros d
      else if (!m.tag.binExt && seen) = true then 0
      else after (extensionEnds m) d fun atEnd d =>
        if (atEnd || !m.exported) = true then workFields e fs sm (seen || m.tag.binExt) fs.zeros d
        else
          match (if e = .borsh then t.directLib else none) with
          | some (l, _) => 1 + taken (unmarshalLib l l.zero) d +
            after (unmarshalLib l l.zero) d fun _ d => workFields e fs sm (seen || m.tag.binExt) fs.zeros d
          | none => workField e t (fieldOpt m sm) (workCore e t (fieldOpt m sm) t.zero) d +
            after (decField e t (fieldOpt m sm) t.zero (decCore e t (fieldOpt m sm) t.zero)) d fun x d =>
              after (recordSize m t x sm) d fun sm d => workFields e fs sm (seen || m.tag.binExt) fs.zeros d)
      (sz := cellsAll) ?_ (fun d => Nat.le_refl _) fun a => by omega
    by_cases h1 : m.tag.skip = true
    · simp only [if_pos h1]; exact keep sm seen
    simp only [if_neg h1]
    by_cases h2 : (!m.tag.binExt && seen) = true
    · simp only [if_pos h2]; exact Costs.panic fun _ => Nat.zero_le _
    simp only [if_neg h2]
    refine Costs.step hv (extensionEnds_prim m) fun atEnd => ?_
    by_cases h3 : (atEnd || !m.exported) = true
    · simp only [if_pos h3]; exact keep sm _
    simp only [if_neg h3]
    cases hdl : (if e = .borsh then t.directLib else none) with
    | some p =>
      obtain ⟨l, isPtr⟩ := p
      simp only []
      have hw : 5 ≤ weight t ∨ (isPtr = false ∧ 4 ≤ weight t) := by
        split at hdl
        · cases t <;> simp only [Ty.directLib] at hdl <;> try contradiction
          · cases hdl; exact .inr ⟨rfl, by simp [weight]⟩
          · rename_i t
            cases t <;> simp only [Ty.asLib] at hdl <;> try contradiction
            exact .inl (by simp [weight])
        · cases hdl
      have h1 : Costs e (unmarshalLib l l.zero) (fun d => 1 + taken (unmarshalLib l l.zero) d) (weight t)
          (fun x => cells (if isPtr = true then Val.ptr (some x) else x)) := by
        rcases hw with hw | ⟨rfl, hw⟩
        · refine (costs_lib hv l).weaken (fun d => Nat.le_add_right _ _) (by omega) fun a => ?_
          split
          · simp only [cells]; omega
          · omega
        · exact (costs_lib hv l).weaken (fun d => Nat.le_add_right _ _) (by omega) fun a => by simp
      refine h1.bind fun x => ?_
      have h2 := (costs_fields hv fs sm (seen || m.tag.binExt) h.2).map
        (g := fun rest => (if isPtr = true then Val.ptr (some x) else x) :: rest)
        (sz' := fun ys => cellsAll ys - cells (if isPtr = true then Val.ptr (some x) else x)) 0 fun vs => by
          simp only [cellsAll]; omega
      rw [Nat.zero_add] at h2
      exact h2
    | none =>
      simp only []
      refine (costs_field hv t (fieldOpt m sm) _ _ (costs_core hv t (fieldOpt m sm) h.1) (Nat.le_refl _)).bind fun x => ?_
      have h4 := (recordSize_costs (e := e) m t x sm).bind (S2 := weights fs) (sz := fun ys => cellsAll ys - cells x)
        (f := fun sm => do
          let rest ← decFields e fs sm (seen || m.tag.binExt) fs.zeros
          Pure.pure (x :: rest))
        (w2 := fun sm d => workFields e fs sm (seen || m.tag.binExt) fs.zeros d) (fun sm => by
          have := (costs_fields hv fs sm (seen || m.tag.binExt) h.2).map (g := fun rest => x :: rest)
            (sz' := fun ys => cellsAll ys - cells x - 0) 0 (fun vs => by simp only [cellsAll]; omega)
          rwa [Nat.zero_add] at this)
      rw [Nat.zero_add] at h4
      exact h4.weaken (fun d => by omega) (Nat.le_refl _) fun a => by omega
termination_by structural fs => fs
theorem costs_nth (hv : e.valid = true) : (fs : Fields) → (i : Nat) → FeedsAll e fs →
    Costs e (decNth e fs i fs.zeros) (workNth e fs i fs.zeros) (weights fs) cellsAll
  | .nil, i, _ => by
    simp only [decNth, workNth, Fields.zeros]
    exact Costs.panic fun _ => Nat.zero_le _
  | .cons m t fs, 0, h => by
    simp only [decNth, workNth, Fields.zeros, weights]
    have h1 := ((costs_core hv t {} h.1).set (o := .le)).map (g := fun x => x :: fs.zeros) (sz' := cellsAll) (weights fs) fun a => by
      have := zeros_cells fs
      simp only [cellsAll]; omega
    exact h1.weaken (fun d => Nat.le_add_right _ _) (by omega) fun a => Nat.le_add_right _ _
  | .cons m t fs, i + 1, h => by
    simp only [decNth, workNth, Fields.zeros, weights]
    have h1 := (costs_nth hv fs i h.2).map (g := fun rest => t.zero :: rest) (sz' := cellsAll) (1 + weight t) fun a => by
      have := zero_cells t
      simp only [cellsAll]; omega
    rw [← Nat.add_assoc]
    exact h1
termination_by structural fs => fs
end
end

end Verif
