import Verif.Proofs.Takes
/-!
Nothing is left out of the count: the bytes taken and the size of the result are bounded by the work.
-/
set_option linter.unusedSimpArgs false
namespace Verif
open Spec

/-- A success takes at most `P` bytes and ten for each unit of work, and the size of its result is at most `Z` and `S` for each unit. -/
def Pays {α : Type} (e : Encoding) (m : DM α) (w : Dec → Nat) (P S Z : Nat) (sz : α → Nat) : Prop :=
  ∀ d a d', d.Ok → d.enc = e → m d = (.ok a, d') →
    d'.Ok ∧ d'.enc = e ∧ d'.pos ≤ d.pos + ((P + 10 * w d : Nat) : Int) ∧ sz a ≤ Z + S * w d

section
variable {α β : Type} {e : Encoding} {P S Z : Nat}

theorem Pays.pure {w : Dec → Nat} {sz : α → Nat} (a : α) (h : sz a ≤ Z) : Pays e (Pure.pure a) w P S Z sz := by
  intro d b d' ho he hr
  cases hr
  exact ⟨ho, he, by omega, by omega⟩

theorem Pays.err {w : Dec → Nat} {sz : α → Nat} (x : Err) : Pays e (M.err x) w P S Z sz := by
  intro d b d' ho he hr; cases hr

theorem Pays.panic {w : Dec → Nat} {sz : α → Nat} : Pays e (M.panic : DM α) w P S Z sz := by
  intro d b d' ho he hr; cases hr

theorem Pays.weaken {m : DM α} {w w' : Dec → Nat} {sz sz' : α → Nat} {P' S' Z' : Nat} (h : Pays e m w P S Z sz) (hw : ∀ d, w d ≤ w' d)
    (hP : P ≤ P') (hS : S ≤ S') (hZ : Z ≤ Z') (hsz : ∀ a, sz' a ≤ sz a) : Pays e m w' P' S' Z' sz' := by
  intro d a d' ho he hr
  obtain ⟨h1, h2, h3, h4⟩ := h d a d' ho he hr
  have := hw d
  have h5 := Nat.mul_le_mul hS this
  have := hsz a
  exact ⟨h1, h2, by omega, by omega⟩

theorem Pays.bind {m : DM α} {f : α → DM β} {w1 : Dec → Nat} {w2 : α → Dec → Nat} {P1 P2 Z1 Z2 : Nat} {sz1 : α → Nat} {sz : β → Nat}
    (h1 : Pays e m w1 P1 S Z1 sz1) (h2 : ∀ a, Pays e (f a) (w2 a) P2 S Z2 (fun b => sz b - sz1 a)) :
    Pays e (m >>= f) (fun d => w1 d + after m d w2) (P1 + P2) S (Z1 + Z2) sz := by
  intro d b d' ho he hr
  cases hm : m d with
  | mk res d1 =>
    cases res with
    | err x => rw [M.bind_err hm] at hr; cases hr
    | panic => rw [M.bind_panic hm] at hr; cases hr
    | ok a =>
      rw [M.bind_ok hm] at hr
      obtain ⟨a1, a2, a3, a4⟩ := h1 d a d1 ho he hm
      obtain ⟨b1, b2, b3, b4⟩ := h2 a d1 b d' a1 a2 hr
      simp only [after, hm]
      have b4 : sz b - sz1 a ≤ Z2 + S * w2 a d1 := b4
      have := Nat.mul_add S (w1 d) (w2 a d1)
      exact ⟨b1, b2, by omega, by omega⟩

theorem Pays.map (n : Nat) {m : DM α} {g : α → β} {w : Dec → Nat} {sz : α → Nat} {sz' : β → Nat} (h : Pays e m w P S Z sz)
    (hg : ∀ a, sz' (g a) ≤ n + sz a) : Pays e (m >>= fun a => Pure.pure (g a)) w P S (n + Z) sz' := by
  intro d b d' ho he hr
  cases hm : m d with
  | mk res d1 =>
    cases res with
    | err x => rw [M.bind_err hm] at hr; cases hr
    | panic => rw [M.bind_panic hm] at hr; cases hr
    | ok a =>
      rw [M.bind_ok hm] at hr
      cases hr
      obtain ⟨a1, a2, a3, a4⟩ := h d a _ ho he hm
      have := hg a
      exact ⟨a1, a2, by omega, by omega⟩

/-- One unit of work pays for ten bytes and `S'` of the result. -/
theorem Pays.more {m : DM α} {w w' : Dec → Nat} {S' : Nat} {sz sz' : α → Nat} (h : Pays e m w P S Z sz) (hP : P ≤ 10) (n : Nat)
    (hZ : Z + n ≤ S') (hS : S ≤ S') (hw : ∀ d, w' d = 1 + w d) (hsz : ∀ a, sz' a ≤ sz a + n) : Pays e m w' 0 S' 0 sz' := by
  intro d a d' ho he hr
  obtain ⟨h1, h2, h3, h4⟩ := h d a d' ho he hr
  have := hsz a
  have h5 := Nat.mul_le_mul_right (w d) hS
  rw [hw, Nat.mul_add, Nat.mul_add]
  exact ⟨h1, h2, by omega, by omega⟩

/-- Something that counts as no work. -/
theorem Took.pays {m : DM α} {Q : Bytes → α → Prop} (h : Took e m Q) (hQ : ∀ bs a, Q bs a → bs.length ≤ P) :
    Pays e m (fun _ => 0) P S 0 (fun _ => 0) := by
  intro d a d' ho he hr
  obtain ⟨bs, tail, h1, rfl, h2⟩ := h d ho he a d' hr
  have := hQ _ _ h2
  exact ⟨Dec.adv_ok ho (by rw [h1]; simp), he, by simp only [Dec.adv]; omega, by simp⟩

theorem Pays.step {m : DM α} {f : α → DM β} {w2 : α → Dec → Nat} {P1 P2 : Nat} {sz : β → Nat} (h1 : Pays e m (fun _ => 0) P1 S 0 (fun _ => 0))
    (h2 : ∀ a, Pays e (f a) (w2 a) P2 S Z sz) : Pays e (m >>= f) (fun d => after m d w2) (P1 + P2) S Z sz := by
  have := h1.bind h2 (sz := sz)
  exact this.weaken (fun d => by simp) (Nat.le_refl _) (Nat.le_refl _) (by omega) fun a => Nat.le_refl _

theorem Pays.set {o : Order} {m : DM α} {w : Dec → Nat} {sz : α → Nat} (h : Pays e m w P S Z sz) :
    Pays e (setCurD o >>= fun _ => m) (fun d => w { d with cur := some o }) P S Z sz := by
  intro d a d' ho he hr
  exact h { d with cur := some o } a d' ho he hr

theorem Pays.times {m : DM α} {w : Dec → Nat} {sz : α → Nat} (h : Pays e m w 0 S 0 sz) : ∀ n : Nat,
    Pays e (repeatM m n) (workTimes m w n) 0 S 0 (fun xs => (xs.map sz).sum)
  | 0 => Pays.pure _ (by simp)
  | n + 1 => by
    have := h.bind (f := fun x => repeatM m n >>= fun xs => Pure.pure (x :: xs)) (sz := fun xs => (xs.map sz).sum)
      fun x => (h.times n).map (g := fun xs => x :: xs) (sz' := fun xs => (xs.map sz).sum - sz x) 0 fun xs => by simp
    exact this

theorem Pays.each {f : β → DM α} {w : β → Dec → Nat} {sz : α → Nat} : ∀ ys : List β, (∀ y ∈ ys, Pays e (f y) (w y) 0 S 0 sz) →
    Pays e (traverseM f ys) (workEach f w ys) 0 S 0 (fun xs => (xs.map sz).sum)
  | [], _ => Pays.pure _ (by simp)
  | y :: ys, h => by
    have := (h y (by simp)).bind (f := fun x => traverseM f ys >>= fun xs => Pure.pure (x :: xs)) (sz := fun xs => (xs.map sz).sum)
      fun x => (Pays.each ys fun z hz => h z (by simp [hz])).map (g := fun xs => x :: xs) (sz' := fun xs => (xs.map sz).sum - sz x) 0
        fun xs => by simp
    exact this

/-- Scalars and library types count their bytes. -/
theorem Costs.pays {m : DM α} {sz : α → Nat} (h : Costs e m (fun d => 1 + taken m d) 4 sz) (hS : 4 ≤ S) :
    Pays e m (fun d => 1 + taken m d) 0 S 0 sz := by
  intro d a d' ho he hr
  obtain ⟨res, k, c, h1, h2, -, h3⟩ := h d ho he
  have ht := taken_to h1
  rw [h1] at hr
  cases hr
  have h4 := (h3 a rfl).2
  simp only [ht]
  have h5 := Nat.mul_le_mul_right (1 + k) hS
  exact ⟨Dec.to_ok (Dec.adv_ok ho h2), he, by simp only [Dec.to, Dec.adv]; omega, by omega⟩
end

section
variable {e : Encoding}

theorem workTimes_one {α : Type} (m : DM α) : ∀ (n : Nat) (d : Dec), workTimes m (fun _ => 1) n d ≤ n
  | 0, _ => by simp [workTimes]
  | n + 1, d => by
    simp only [workTimes, after]
    split
    · have := workTimes_one m n ‹Dec›
      omega
    · omega

theorem seqLen_pays (hv : e.valid = true) {S : Nat} : Pays e (readSeqLen e) (fun _ => 0) 10 S 0 (fun _ => 0) := by
  have : Took e (readSeqLen e) fun bs _ => bs.length ≤ 10 := by
    cases e
    · intro d ho he a d' hr
      simp only [readSeqLen] at hr
      rw [readLength_enc, he] at hr
      exact (readUvarint64_took.bind (Q := fun bs _ => bs.length ≤ 10) fun p n hn =>
        Took.ite (fun _ => Took.err _) fun hle => Took.pure _ (by rw [List.append_nil]; exact hn.2.1)) d ho he a d' hr
    · exact readCompactU16_took.weaken fun bs n h => by
        rw [h.1, Spec.compact_length]; repeat' split
        all_goals omega
    · exact (readUint32_took .le).weaken fun bs n h => by rw [h.2, fixed_length]; omega
    · cases hv
  exact this.pays fun _ _ h => h

theorem flag_pays (hv : e.valid = true) {S : Nat} : Pays e (readFlag e) (fun _ => 0) 4 S 0 (fun _ => 0) := by
  have hb : Took e readByte fun bs _ => bs.length ≤ 4 := readByte_took.weaken fun bs b h => by rw [h]; simp
  have : Took e (readFlag e) fun bs _ => bs.length ≤ 4 := by
    cases e
    · exact (readUint32_took .le).map fun bs n h => by rw [h.2, fixed_length]; omega
    · exact hb.map fun bs b h => h
    · exact hb.map fun bs b h => h
    · cases hv
  exact this.pays fun _ _ h => h

theorem coption_pays {S : Nat} : Pays e readCOption (fun _ => 0) 4 S 0 (fun _ => 0) :=
  readCOption_took.pays fun bs b h => by rw [h, cflag, fixed_length]; omega

theorem uints_pays (hv : e.valid = true) (l : Int) (w : Width) : Pays e (readUints l w) (workUints l w) 0 1 0 cellsAll := by
  intro d a d' ho he hr
  unfold readUints at hr
  rw [M.bind_apply, M.get_apply] at hr
  simp only [] at hr
  by_cases hl : l * w.bytes > d.remaining
  · rw [if_pos hl] at hr; cases hr
  rw [if_neg hl] at hr
  have wide : ∀ w : Width, ((if l < 0 then M.panic else do
      let ns ← repeatM (readUintW w .le) l.toNat
      Pure.pure (ns.map Val.uint)) : DM (List Val)) d = (.ok a, d') →
      d'.Ok ∧ d'.enc = e ∧ d'.pos ≤ d.pos + ((0 + 10 * l.toNat : Nat) : Int) ∧ cellsAll a ≤ 0 + 1 * l.toNat := by
    intro w hr
    have h1 : Pays e (readUintW w .le) (fun _ => 1) 0 1 0 (fun _ => 1) := by
      have := ((uintW_took (e := e) w).pays (P := 8) (S := 1) fun bs n h => by
        rw [h.2, fixed_length]; cases w <;> decide)
      exact this.more (by decide) 1 (by decide) (Nat.le_refl _) (fun d => rfl) fun a => by omega
    split at hr
    · cases hr
    have h2 := (h1.times l.toNat).map (g := fun ns => ns.map Val.uint) (sz' := cellsAll) 0 fun ns => by
      rw [uints_cells, List.map_const', List.sum_replicate_nat]; simp
    have h3 := h2 d a d' ho he hr
    have h4 := workTimes_one (readUintW w .le) l.toNat d
    exact ⟨h3.1, h3.2.1, by have := h3.2.2.1; omega, by have := h3.2.2.2; omega⟩
  have goal : d'.Ok ∧ d'.enc = e ∧ d'.pos ≤ d.pos + ((0 + 10 * l.toNat : Nat) : Int) ∧ cellsAll a ≤ 0 + 1 * l.toNat := by
    cases w with
    | w8 =>
      simp only [] at hr
      cases hb : readNBytes l d with
      | mk res d1 =>
        cases res with
        | err x => rw [M.bind_err hb] at hr; cases hr
        | panic => rw [M.bind_panic hb] at hr; cases hr
        | ok b =>
          rw [M.bind_ok hb] at hr
          cases hr
          obtain ⟨bs, tail, h1, rfl, rfl, h2, -⟩ := readNBytes_took l d ho he b _ hb
          refine ⟨Dec.adv_ok ho (by rw [h1]; simp), he, by simp only [Dec.adv]; omega, ?_⟩
          rw [byte_cells]; omega
    | w16 => exact wide _ hr
    | w32 => exact wide _ hr
    | w64 => exact wide _ hr
  simpa only [workUints, if_neg hl] using goal

theorem field_pays (hv : e.valid = true) (t : Ty) (o : Opt) (core : DM Val) (w : Dec → Nat) {S : Nat}
    (h : Pays e core w 0 S 0 cells) : Pays e (decField e t o t.zero core) (workField e t o w) 8 S (weight t) cells := by
  have h0 : ∀ {P}, Pays e core w P S (weight t) cells := h.weaken (fun _ => Nat.le_refl _) (Nat.zero_le _) (Nat.le_refl _) (Nat.zero_le _)
    fun _ => Nat.le_refl _
  have ite : ∀ {P} (b : Bool) (v : Val), cells v ≤ weight t →
      Pays e (if b = true then core else Pure.pure v) (fun d => if b = true then w d else 0) P S (weight t) cells := by
    intro P b v hv
    cases b
    · simpa using Pays.pure v hv
    · simpa using h0
  have copt : ∀ v, cells v ≤ weight t → Pays e (readCOption >>= fun present => if present = true then core else Pure.pure v)
      (fun d => after readCOption d fun present d => if present = true then w d else 0) (4 + 0) S (weight t) cells := fun v hv' =>
    Pays.step coption_pays fun b => ite b v hv'
  unfold decField
  have goal : Pays e (if o.optional = true then
        if t.asLib.isSome = true then M.panic
        else do
          let present ← readFlag e
          if present = true then
            if e = .borsh ∧ o.coptional = true then
              if t.baseLib = true then M.panic
              else do
                let present ← readCOption
                if present = true then core else Pure.pure (absentBase t)
            else core
          else Pure.pure (absentVal t t.zero)
      else if e = .borsh ∧ o.coptional = true then
        if t.asLib.isSome = true then M.panic
        else do
          let present ← readCOption
          if present = true then core else Pure.pure (absentVal t t.zero)
      else core)
      (fun d => if o.optional = true then
          if t.asLib.isSome = true then 0
          else after (readFlag e) d fun present d =>
            if present = true then
              if e = .borsh ∧ o.coptional = true then
                if t.baseLib = true then 0
                else after readCOption d fun present d => if present = true then w d else 0
              else w d
            else 0
        else if e = .borsh ∧ o.coptional = true then
          if t.asLib.isSome = true then 0
          else after readCOption d fun present d => if present = true then w d else 0
        else w d) 8 S (weight t) cells := by
    by_cases h1 : o.optional = true
    · simp only [if_pos h1]
      by_cases h2 : t.asLib.isSome = true
      · simp only [if_pos h2]; exact .panic
      · simp only [if_neg h2]
        refine Pays.step (P1 := 4) (P2 := 4) (flag_pays hv) fun b => ?_
        cases b
        · simpa using Pays.pure _ (absentVal_cells t)
        · simp only [if_true]
          by_cases h3 : e = .borsh ∧ o.coptional = true
          · simp only [if_pos h3]
            by_cases h4 : t.baseLib = true
            · simp only [if_pos h4]; exact .panic
            · simp only [if_neg h4]; exact copt _ (absentBase_cells t)
          · simp only [if_neg h3]; exact h0
    · simp only [if_neg h1]
      by_cases h3 : e = .borsh ∧ o.coptional = true
      · simp only [if_pos h3]
        by_cases h2 : t.asLib.isSome = true
        · simp only [if_pos h2]; exact .panic
        · simp only [if_neg h2]
          exact (copt _ (absentVal_cells t)).weaken (fun _ => Nat.le_refl _) (by decide) (Nat.le_refl _) (Nat.le_refl _) fun _ => Nat.le_refl _
      · simp only [if_neg h3]; exact h0
  exact goal.set (o := o.order)

theorem record_pays {S : Nat} (m : FieldMeta) (t : Ty) (v : Val) (sm : List (Bytes × Int)) :
    Pays e (recordSize m t v sm) (fun _ => 0) 0 S 0 (fun _ => 0) := by
  unfold recordSize
  split
  · exact Pays.pure _ (Nat.le_refl _)
  · cases sizeofVal t.kind v with
    | ok n => exact Pays.pure (e := e) ((m.tag.sizeOf, n) :: sm) (Nat.le_refl _)
    | err x => exact Pays.err (e := e) x
    | panic => exact Pays.panic (e := e)

theorem extension_pays {S : Nat} (m : FieldMeta) : Pays e (extensionEnds m) (fun _ => 0) 0 S 0 (fun _ => 0) := by
  unfold extensionEnds
  split
  · intro d a d' ho he hr
    simp only [noBytesLeft, M.bind_apply, restM] at hr
    rw [if_pos (show 0 ≤ d.pos ∧ d.pos ≤ d.data.length from ho)] at hr
    cases hr
    exact ⟨ho, he, by omega, by simp⟩
  · exact Pays.pure _ (Nat.le_refl _)

theorem Pays.up {α : Type} {m : DM α} {w : Dec → Nat} {sz : α → Nat} {P S Z S' : Nat} (h : Pays e m w P S Z sz) (hS : S ≤ S') :
    Pays e m w P S' Z sz :=
  h.weaken (fun _ => Nat.le_refl _) (Nat.le_refl _) hS (Nat.le_refl _) fun _ => Nat.le_refl _

mutual
theorem core_pays (hv : e.valid = true) : (t : Ty) → (o : Opt) →
    Pays e (decCore e t o t.zero) (workCore e t o t.zero) 0 (weight t) 0 cells
  | .lib l, o => (costs_lib hv l).pays (Nat.le_refl _)
  | .ptr t, o => by
    have h1 := (core_pays hv t o).map (g := fun x => Val.ptr (some x)) (sz' := cells) 1 fun a => by simp [cells]
    exact h1.more (by decide) 0 (by simp only [weight]; omega) (by simp only [weight]; omega) (fun d => rfl) fun a => Nat.le_refl _
  | .slice t, o => by
    have body : ∀ l : Int, Pays e (if e = .borsh ∧ l = 0 then Pure.pure (Val.seq none) else do
        let d ← M.get
        if l > d.remaining then M.err .eof
        else
          match t.uintKind with
          | some w => do
            let xs ← readUints l w
            Pure.pure (Val.seq (some xs))
          | none => do
            let xs ← repeatM (do setCurD .le; decCore e t {} t.zero) l.toNat
            Pure.pure (Val.seq (some xs)))
        (fun d => if e = .borsh ∧ l = 0 then 0
          else if l > d.remaining then 0
          else
            match t.uintKind with
            | some w => workUints l w d
            | none => workTimes (do setCurD .le; decCore e t {} t.zero)
                (fun d => workCore e t {} t.zero { d with cur := some .le }) l.toNat d)
        0 (weight t) 1 cells := by
      intro l
      by_cases h0 : e = .borsh ∧ l = 0
      · simp only [if_pos h0]
        exact Pays.pure _ (by simp [cells])
      · simp only [if_neg h0]
        intro d a d' ho he hr
        rw [M.bind_apply, M.get_apply] at hr
        simp only [] at hr
        by_cases hl : l > d.remaining
        · rw [if_pos hl] at hr; cases hr
        · rw [if_neg hl] at hr
          have hc : Pays e (match t.uintKind with
              | some w => do
                let xs ← readUints l w
                Pure.pure (Val.seq (some xs))
              | none => do
                let xs ← repeatM (do setCurD .le; decCore e t {} t.zero) l.toNat
                Pure.pure (Val.seq (some xs)))
              (fun d => match t.uintKind with
                | some w => workUints l w d
                | none => workTimes (do setCurD .le; decCore e t {} t.zero)
                    (fun d => workCore e t {} t.zero { d with cur := some .le }) l.toNat d) 0 (weight t) 1 cells := by
            cases hu : t.uintKind with
            | some w =>
              exact ((uints_pays hv l w).map (g := fun xs => Val.seq (some xs)) (sz' := cells) 1 fun a => by
                simp [cells]).up (weight_pos t)
            | none =>
              exact (((core_pays hv t {}).set (o := .le)).times l.toNat).map
                (g := fun xs => Val.seq (some xs)) (sz' := cells) 1 fun a => by simp [cells, cellsAll_sum]
          have := hc d a d' ho he hr
          simpa only [if_neg hl] using this
    simp only [decCore, workCore, Ty.zero, weight, sliceLen]
    cases o.sizeOf with
    | some s => exact (body s).more (by decide) 0 (by have := weight_pos t; omega) (by omega) (fun d => rfl) fun _ => Nat.le_refl _
    | none =>
      have h1 := Pays.step (seqLen_pays hv) fun n : Nat => body n
      refine h1.more (by decide) 0 (by have := weight_pos t; omega) (by omega) (fun d => ?_) fun _ => Nat.le_refl _
      simp only [after, M.bind_apply]
      rcases readSeqLen e d with ⟨res, d1⟩
      cases res <;> rfl
  | .array n t, o => by
    simp only [decCore, workCore, Ty.zero, Val.elems, weight]
    cases hu : t.uintKind with
    | some w =>
      simp only []
      have h1 := (uints_pays hv n w).map (g := fun xs => Val.arr xs) (sz' := cells) 1 fun a => by simp [cells]
      exact h1.more (by decide) 0 (by omega) (by omega) (fun d => rfl) fun _ => Nat.le_refl _
    | none =>
      simp only []
      have h1 := Pays.each (List.replicate n t.zero) (f := fun x => do setCurD .le; decCore e t {} x)
        (w := fun x d => workCore e t {} x { d with cur := some .le }) (S := weight t) (sz := cells) (e := e) (by
          intro y hy
          rw [(List.mem_replicate.mp hy).2]
          exact (core_pays hv t {}).set)
      have h2 := h1.map (g := fun xs => Val.arr xs) (sz' := cells) 1 fun a => by simp [cells, cellsAll_sum]
      cases n with
      | zero =>
        have h3 : Pays e (do
            let xs ← traverseM (fun x => do setCurD .le; decCore e t {} x) (List.replicate 0 t.zero)
            Pure.pure (Val.arr xs)) (fun _ => 0) 0 1 1 cells := Pays.pure (Val.arr []) (by simp [cells, cellsAll])
        exact h3.more (by decide) 0 (by omega) (by omega) (fun d => rfl) fun _ => Nat.le_refl _
      | succ n =>
        have hn : (n + 1) * weight t = n * weight t + weight t := Nat.succ_mul _ _
        exact h2.more (by decide) 0 (by omega) (by omega) (fun d => rfl) fun _ => Nat.le_refl _
  | .map k t, o => by
    have pair := ((core_pays hv k {}).up (S' := weight k + weight t) (by omega)).bind (f := fun x => do
        setCurD .le
        let y ← decCore e t {} t.zero
        Pure.pure (x, y)) (w2 := fun _ d => workCore e t {} t.zero { d with cur := some .le })
      (sz := fun p : Val × Val => cells p.1 + cells p.2) (fun x => by
        have h1 := ((core_pays hv t {}).up (S' := weight k + weight t) (by omega)).map (g := fun y => (x, y))
          (sz' := fun p : Val × Val => cells p.1 + cells p.2 - cells x) 0 fun a => by simp
        exact h1.set) |>.set (o := .le)
    have body : ∀ l : Nat, Pays e (if l = 0 then Pure.pure (Val.map none) else do
        let xs ← repeatM (do
          setCurD .le
          let x ← decCore e k {} k.zero
          setCurD .le
          let y ← decCore e t {} t.zero
          Pure.pure (x, y)) l
        Pure.pure (Val.map (some (xs.foldl (fun m x => setEntry k x m) []))))
        (fun d => workTimes (do
          setCurD .le
          let x ← decCore e k {} k.zero
          setCurD .le
          let y ← decCore e t {} t.zero
          Pure.pure (x, y)) (fun d => workCore e k {} k.zero { d with cur := some .le } +
          after (do setCurD .le; decCore e k {} k.zero) d fun _ d => workCore e t {} t.zero { d with cur := some .le }) l d)
        0 (weight k + weight t) 1 cells := by
      intro l
      by_cases h0 : l = 0
      · simp only [if_pos h0]
        subst h0
        exact Pays.pure _ (by simp [cells])
      · simp only [if_neg h0]
        exact (pair.times l).map (g := fun xs => Val.map (some (xs.foldl (fun m x => setEntry k x m) []))) (sz' := cells) 1 fun xs => by
            have := foldEntries_cells k xs []
            simp only [cells, cellsMap_sum xs] at this ⊢
            simp only [cellsMap] at this
            omega
    simp only [decCore, workCore, Ty.zero, weight]
    exact (Pays.step (seqLen_pays hv) body).more (by decide) 0 (by omega) (by omega) (fun d => rfl) fun _ => Nat.le_refl _
  | .struct fs, o => by
    simp only [decCore, workCore, Ty.zero, Val.fields, weight, decStruct]
    by_cases hen : e = .borsh ∧ fs.isEnum = true
    · simp only [if_pos hen]
      have h1 := Pays.step (e := e) (w2 := fun tag d => if tag + 1 ≥ fs.length then 0 else workNth e fs (tag + 1) fs.zeros d)
        (f := fun tag => if tag + 1 ≥ fs.length then M.err .enumTooLarge else do
          let vs ← decNth e fs (tag + 1) fs.zeros
          Pure.pure (Val.struct (.uint tag :: vs.tail))) (P1 := 1) (P2 := 0) (S := 2 + weights fs) (Z := 2 + weights fs) (sz := cells)
          (readUint8_took.pays fun bs n h => by rw [h.2, fixed_length]; omega) fun tag => by
          by_cases hlt : tag + 1 ≥ fs.length
          · simp only [if_pos hlt]; exact Pays.err _
          · simp only [if_neg hlt]
            refine (nth_pays hv fs (tag + 1) (2 + weights fs) (by omega)).map 2 fun vs => ?_
            cases vs <;> simp only [cells, cellsAll, List.tail] <;> omega
      exact h1.more (by decide) 0 (by omega) (by omega) (fun d => rfl) fun _ => Nat.le_refl _
    · simp only [if_neg hen]
      have h1 := (fields_pays hv fs [] false (weights fs) (Nat.le_refl _)).map (g := fun vs => Val.struct vs) (sz' := cells) 1 fun a => by simp [cells]
      exact h1.more (by decide) 0 (by omega) (by omega) (fun d => rfl) fun _ => Nat.le_refl _
  | .iface, _ => by
    intro d a d' ho he hr
    cases hr
    exact ⟨ho, he, by omega, by simp [Ty.zero, cells, weight, workCore]⟩
  | .bool, o => (costs_plain hv .bool o (by simp)).pays (Nat.le_refl _)
  | .uint w _, o => (costs_plain hv (.uint w) o (by simp)).pays (Nat.le_refl _)
  | .int w _, o => (costs_plain hv (.int w) o (by simp)).pays (Nat.le_refl _)
  | .borshEnum, o => (costs_plain hv (.uint .w8) o (by simp)).pays (Nat.le_refl _)
  | .f32, o => (costs_plain hv .f32 o (by simp)).pays (Nat.le_refl _)
  | .f64, o => (costs_plain hv .f64 o (by simp)).pays (Nat.le_refl _)
  | .str, o => (costs_plain hv .string o (by simp)).pays (Nat.le_refl _)
  | .plainInt, _ | .plainUint, _ | .other, _ => Pays.err _
termination_by structural t => t
theorem fields_pays (hv : e.valid = true) : (fs : Fields) → (sm : List (Bytes × Int)) → (seen : Bool) → (S : Nat) → weights fs ≤ S →
    Pays e (decFields e fs sm seen fs.zeros) (workFields e fs sm seen fs.zeros) 0 S 0 cellsAll
  | .nil, _, _, _, _ => Pays.pure _ (by simp [cellsAll])
  | .cons m t fs, sm, seen, S, hS => by
    simp only [weights] at hS
    simp only [decFields, workFields, Fields.zeros]
    have rest : ∀ sm seen, Pays e (decFields e fs sm seen fs.zeros) (workFields e fs sm seen fs.zeros) 0 S 0 cellsAll := fun sm seen =>
      fields_pays hv fs sm seen S (by omega)
    have keep : ∀ {P} sm seen, Pays e (do
        let rest ← decFields e fs sm seen fs.zeros
        Pure.pure (t.zero :: rest)) (fun d => workFields e fs sm seen fs.zeros d) P S (weight t) cellsAll := fun sm seen =>
      ((rest sm seen).map (weight t) fun vs => by
        have := zero_cells t
        simp only [cellsAll]; omega).weaken (fun _ => Nat.le_refl _) (Nat.zero_le _) (Nat.le_refl _) (Nat.le_refl _) fun _ => Nat.le_refl _
    refine Pays.more (P := 8) (S := S) (Z := weight t) (w := fun d => if m.tag.skip = true then workFields e fs sm seen fs.zeros d
      else if (!m.tag.binExt && seen) = true then 0
      else after (extensionEnds m) d fun atEnd d =>
        if (atEnd || !m.exported) = true then workFields e fs sm (seen || m.tag.binExt) fs.zeros d
        else
          match (if e = .borsh then t.directLib else none) with
          | some (l, _) => 1 + taken (unmarshalLib l l.zero) d +
            after (unmarshalLib l l.zero) d fun _ d => workFields e fs sm (seen || m.tag.binExt) fs.zeros d
          | none => workField e t (fieldOpt m sm) (workCore e t (fieldOpt m sm) t.zero) d +
            after (decField e t (fieldOpt m sm) t.zero (decCore e t (fieldOpt m sm) t.zero)) d fun x d =>
              after (recordSize m t x sm) d fun sm d => workFields e fs sm (seen || m.tag.binExt) fs.zeros d)
      (sz := cellsAll) ?_ (by decide) 0 (by omega) (Nat.le_refl _) (fun d => rfl) fun a => Nat.le_refl _
    by_cases h1 : m.tag.skip = true
    · simp only [if_pos h1]; exact keep sm seen
    simp only [if_neg h1]
    by_cases h2 : (!m.tag.binExt && seen) = true
    · simp only [if_pos h2]; exact Pays.panic
    simp only [if_neg h2]
    refine Pays.step (P1 := 0) (P2 := 8) (extension_pays m) fun atEnd => ?_
    by_cases h3 : (atEnd || !m.exported) = true
    · simp only [if_pos h3]; exact keep sm _
    simp only [if_neg h3]
    cases hdl : (if e = .borsh then t.directLib else none) with
    | some p =>
      obtain ⟨l, isPtr⟩ := p
      simp only []
      have hw : 4 ≤ weight t := by
        split at hdl
        · rcases directLib_cases hdl with ⟨rfl, -⟩ | ⟨rfl, -⟩ <;> simp [weight]
        · cases hdl
      have h1 : Pays e (unmarshalLib l l.zero) (fun d => 1 + taken (unmarshalLib l l.zero) d) 8 S (weight t)
          (fun x => cells (if isPtr = true then Val.ptr (some x) else x)) := by
        intro d a d' ho he hr
        obtain ⟨a1, a2, a3, a4⟩ := (costs_lib hv l).pays (S := S) (by omega) d a d' ho he hr
        have a4 : cells a ≤ 0 + S * (1 + taken (unmarshalLib l l.zero) d) := a4
        show d'.Ok ∧ d'.enc = e ∧ d'.pos ≤ d.pos + ((8 + 10 * (1 + taken (unmarshalLib l l.zero) d) : Nat) : Int) ∧
          cells (if isPtr = true then Val.ptr (some a) else a) ≤ weight t + S * (1 + taken (unmarshalLib l l.zero) d)
        have a3 : d'.pos ≤ d.pos + ((0 + 10 * (1 + taken (unmarshalLib l l.zero) d) : Nat) : Int) := a3
        refine ⟨a1, a2, by omega, ?_⟩
        split
        · simp only [cells]; omega
        · omega
      refine (h1.bind (P2 := 0) (Z2 := 0) fun x => ?_)
      have h2 := (rest sm (seen || m.tag.binExt)).map
        (g := fun rest => (if isPtr = true then Val.ptr (some x) else x) :: rest)
        (sz' := fun ys => cellsAll ys - cells (if isPtr = true then Val.ptr (some x) else x)) 0 fun vs => by
          simp only [cellsAll]; omega
      exact h2
    | none =>
      simp only []
      refine (field_pays hv t (fieldOpt m sm) _ _ ((core_pays hv t (fieldOpt m sm)).up (S' := S) (by omega))).bind (P2 := 0) (Z2 := 0)
        fun x => ?_
      exact Pays.step (P1 := 0) (P2 := 0) (record_pays m t x sm) fun sm' =>
        (rest sm' (seen || m.tag.binExt)).map (g := fun rest => x :: rest) (sz' := fun ys => cellsAll ys - cells x) 0 fun vs => by
          simp only [cellsAll]; omega
termination_by structural fs => fs
theorem nth_pays (hv : e.valid = true) : (fs : Fields) → (i : Nat) → (S : Nat) → weights fs ≤ S →
    Pays e (decNth e fs i fs.zeros) (workNth e fs i fs.zeros) 0 S (weights fs) cellsAll
  | .nil, i, _, _ => Pays.panic
  | .cons m t fs, 0, S, hS => by
    simp only [weights] at hS
    simp only [decNth, workNth, Fields.zeros, weights]
    have h1 := (((core_pays hv t {}).up (S' := S) (by omega)).set (o := .le)).map (g := fun x => x :: fs.zeros) (sz' := cellsAll)
      (weights fs) fun a => by
      have := zeros_cells fs
      simp only [cellsAll]; omega
    exact h1.weaken (fun _ => Nat.le_refl _) (Nat.le_refl _) (Nat.le_refl _) (by omega) fun _ => Nat.le_refl _
  | .cons m t fs, i + 1, S, hS => by
    simp only [weights] at hS
    simp only [decNth, workNth, Fields.zeros, weights]
    have h1 := (nth_pays hv fs i S (by omega)).map (g := fun rest => t.zero :: rest) (sz' := cellsAll) (1 + weight t) fun a => by
      have := zero_cells t
      simp only [cellsAll]; omega
    exact h1.weaken (fun _ => Nat.le_refl _) (Nat.le_refl _) (Nat.le_refl _) (by omega) fun _ => Nat.le_refl _
termination_by structural fs => fs
end
end
end Verif
