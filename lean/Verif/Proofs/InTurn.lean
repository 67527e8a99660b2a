import Verif.Spec.InTurn
import Verif.Proofs.Canonical
import Verif.Proofs.Restore
/-! # The loops of the decoder, element by element -/
namespace Verif
open Spec

/-- A decoder of encoding `e` inside its data with at most `N` bytes left. -/
def Good (e : Encoding) (N : Nat) (d : Dec) : Prop := d.Ok ∧ d.enc = e ∧ d.rest.length ≤ N

variable {e : Encoding} {N : Nat}

theorem decode_step (hv : e.valid = true) {t : Ty} (ht : decodable e t false = true) {old : Val} (hs : Shaped N t old) {d : Dec}
    (hg : Good e N d) : (setCurD .le >>= fun _ => decCore e t {} old) d = decode t old d ∧ Good e N (decode t old d).2 := by
  obtain ⟨ho, he, hN⟩ := hg
  refine ⟨?_, ?_⟩
  · have hne : ¬ d.enc = .other := by rw [he]; intro h; rw [h] at hv; cases hv
    unfold decode
    rw [M.bind_apply (m := M.get), M.get_apply]
    simp only [if_neg hne]
    rw [he]
  · obtain ⟨res, k, c, hr, hk, -⟩ := decode_safe hv t old ht d ho he hN hs
    rw [hr]
    refine ⟨Dec.to_ok (d.adv_ok ho hk), he, ?_⟩
    rw [Dec.to_rest, Dec.adv_rest ho]
    simp only [List.length_drop]
    omega

theorem traverse_inTurn (hv : e.valid = true) {t : Ty} (ht : decodable e t false = true) : ∀ (olds xs : List Val) (d d' : Dec),
    (∀ x ∈ olds, Shaped N t x) → Good e N d →
    (traverseM (fun x => do setCurD .le; decCore e t {} x) olds d = (.ok xs, d') ↔ InTurn t olds xs d d')
  | [], xs, d, d', _, _ => by
    constructor
    · intro h
      simp only [traverseM, M.pure_apply, Prod.mk.injEq, Res.ok.injEq] at h
      obtain ⟨rfl, rfl⟩ := h
      exact .nil _
    · intro h
      cases h
      rfl
  | old :: olds, xs, d, d', hs, hg => by
    obtain ⟨h1, h2⟩ := decode_step hv ht (hs old (by simp)) hg
    rw [traverseM, M.bind_apply, h1]
    constructor
    · intro h
      rcases hr : decode t old d with ⟨r, d1⟩
      rw [hr] at h h2
      cases r with
      | err => simp at h
      | panic => simp at h
      | ok x =>
        simp only [] at h
        rw [M.bind_apply] at h
        rcases hr2 : traverseM (fun x => do setCurD .le; decCore e t {} x) olds d1 with ⟨r, d2⟩
        rw [hr2] at h
        cases r <;> simp at h
        obtain ⟨rfl, rfl⟩ := h
        exact .cons hr ((traverse_inTurn hv ht olds _ d1 _ (fun x hx => hs x (by simp [hx])) h2).1 hr2)
    · intro h
      cases h with
      | cons first rest =>
        rw [first] at h2 ⊢
        simp only []
        rw [M.bind_ok ((traverse_inTurn hv ht olds _ _ _ (fun x hx => hs x (by simp [hx])) h2).2 rest)]
        rfl

theorem traverse_replicate {f : Val → DM Val} {z : Val} : ∀ n, traverseM f (List.replicate n z) = repeatM (f z) n
  | 0 => rfl
  | n + 1 => by simp [List.replicate, traverseM, repeatM, traverse_replicate n]

theorem repeat_pairs (hv : e.valid = true) {k t : Ty} (hk : decodable e k false = true) (ht : decodable e t false = true) :
    ∀ (n : Nat) (ps : List (Val × Val)) (d d' : Dec), Good e N d →
    (repeatM (do
        setCurD .le
        let x ← decCore e k {} k.zero
        setCurD .le
        let y ← decCore e t {} t.zero
        pure (x, y)) n d = (.ok ps, d') ↔ ps.length = n ∧ Pairs k t ps d d')
  | 0, ps, d, d', _ => by
    constructor
    · intro h
      simp only [repeatM, M.pure_apply, Prod.mk.injEq, Res.ok.injEq] at h
      obtain ⟨rfl, rfl⟩ := h
      exact ⟨rfl, .nil _⟩
    · rintro ⟨h1, h⟩
      cases h
      · rfl
      · simp at h1
  | n + 1, ps, d, d', hg => by
    obtain ⟨h1, h2⟩ := decode_step hv hk (zero_shaped N k) hg
    have hstep : (do
        setCurD .le
        let x ← decCore e k {} k.zero
        setCurD .le
        let y ← decCore e t {} t.zero
        pure (x, y) : DM (Val × Val)) d = (do
        let x ← decode k k.zero
        let y ← decode t t.zero
        pure (x, y) : DM (Val × Val)) d := by
      rcases hr : decode k k.zero d with ⟨r, d1⟩
      rw [hr] at h1 h2
      have h1' : decCore e k {} k.zero { d with cur := some .le } = (r, d1) := by
        rw [← h1]; simp [setCurD, M.bind_apply]
      rw [M.bind_apply]
      simp only [setCurD, M.modify_apply]
      rw [M.bind_apply, h1', M.bind_apply, hr]
      cases r with
      | err => rfl
      | panic => rfl
      | ok x =>
        simp only []
        have h3 := (decode_step hv ht (zero_shaped N t) h2).1
        rw [M.bind_apply (m := decode t t.zero), ← h3]
        simp only [setCurD, M.bind_apply, M.modify_apply]
    rw [repeatM, M.bind_apply, hstep]
    rcases hr : decode k k.zero d with ⟨r, d1⟩
    rw [M.bind_apply, hr]
    rw [hr] at h2
    constructor
    · intro h
      cases r with
      | err => simp at h
      | panic => simp at h
      | ok x =>
        simp only [M.bind_apply] at h
        have h3 := (decode_step hv ht (zero_shaped N t) h2).2
        rcases hr2 : decode t t.zero d1 with ⟨r2, d2⟩
        rw [hr2] at h h3
        cases r2 with
        | err => simp at h
        | panic => simp at h
        | ok y =>
          simp only [M.pure_apply] at h
          rcases hr3 : repeatM (do
            setCurD .le
            let x ← decCore e k {} k.zero
            setCurD .le
            let y ← decCore e t {} t.zero
            pure (x, y)) n d2 with ⟨r3, d3⟩
          have ih := repeat_pairs hv hk ht n
          rw [hr3] at h
          cases r3 <;> simp at h
          obtain ⟨rfl, rfl⟩ := h
          obtain ⟨h4, h5⟩ := (ih _ d2 _ h3).1 hr3
          exact ⟨by simp [h4], .cons hr hr2 h5⟩
    · rintro ⟨hl, h⟩
      cases h with
      | nil => simp at hl
      | cons key value rest =>
        rw [hr] at key
        cases key
        simp only []
        rw [M.bind_ok value]
        have h3 := (decode_step hv ht (zero_shaped N t) h2).2
        rw [value] at h3
        simp only [M.pure_apply]
        rw [M.bind_ok ((repeat_pairs hv hk ht n _ _ _ h3).2 ⟨by simpa using hl, rest⟩)]
        rfl

/-! ### maps: the last pair wins -/

theorem lasts_snoc {k : Ty} (x : Val × Val) : ∀ ps, lasts k (ps ++ [x]) = (lasts k ps).filter (fun p => !k.keyEq p.1 x.1) ++ [x]
  | [] => by simp [lasts]
  | p :: ps => by
    simp only [List.cons_append, lasts, List.any_append, List.any_cons, List.any_nil, Bool.or_false, lasts_snoc x ps]
    cases h1 : ps.any fun q => k.keyEq p.1 q.1 <;> cases h2 : k.keyEq p.1 x.1 <;> simp [h2]

theorem setEntry_perm {k : Ty} {x : Val × Val} : ∀ (m : List (Val × Val)), m.Pairwise (fun a b => k.keyEq a.1 b.1 = false) →
    (setEntry k x m).Perm (m.filter (fun p => !k.keyEq p.1 x.1) ++ [x])
  | [], _ => by simp [setEntry]
  | y :: ys, h => by
    rw [List.pairwise_cons] at h
    rw [setEntry]
    by_cases hy : k.keyEq y.1 x.1 = true
    · rw [if_pos hy]
      have hf : ys.filter (fun p => !k.keyEq p.1 x.1) = ys := by
        rw [List.filter_eq_self]
        intro z hz
        cases hzx : k.keyEq z.1 x.1
        · rfl
        · have := h.1 z hz
          rw [keyEq_trans k hy (keyEq_comm k hzx)] at this
          cases this
      rw [List.filter_cons_of_neg (by simp [hy]), hf]
      exact (List.perm_append_singleton x ys).symm
    · rw [if_neg hy, List.filter_cons_of_pos (by simp [hy]), List.cons_append]
      exact (setEntry_perm ys h.2).cons y

theorem foldl_lasts {k : Ty} (ps : List (Val × Val)) :
    (ps.foldl (fun m x => setEntry k x m) []).Perm (lasts k ps) := by
  have key : ∀ n, ∀ ps : List (Val × Val), ps.length = n → (ps.foldl (fun m x => setEntry k x m) []).Perm (lasts k ps) := by
    intro n
    induction n with
    | zero => intro ps h; rw [List.eq_nil_of_length_eq_zero h]; exact .refl _
    | succ n ih =>
      intro ps h
      have hne : ps ≠ [] := by rintro rfl; simp at h
      rw [← List.dropLast_concat_getLast hne, lasts_snoc, List.foldl_append]
      simp only [List.foldl_cons, List.foldl_nil]
      refine (setEntry_perm _ (foldl_setEntry_pairwise _ [] List.Pairwise.nil)).trans ?_
      exact ((ih ps.dropLast (by simp [h])).filter _).append_right _
  exact key _ ps rfl

/-! ### unsigned integers: the bulk path does what the loop would do -/

theorem uintKind_cases {t : Ty} {w : Width} (h : t.uintKind = some w) (hl : t.asLib = none) :
    (∃ b, t = .uint w b) ∨ (t = .borshEnum ∧ w = .w8) := by
  cases t <;> simp [Ty.uintKind, Ty.kind, Ty.asLib] at h hl
  · exact .inl ⟨_, by rw [h]⟩
  · exact .inr ⟨rfl, h.symm⟩

theorem decode_uint (hv : e.valid = true) {t : Ty} {w : Width} (h : t.uintKind = some w) (hl : t.asLib = none) (old : Val) {d : Dec}
    (he : d.enc = e) (hc : d.cur = some .le) : decode t old d = (do let n ← readUintW w .le; pure (Val.uint n)) d := by
  have hne : ¬ d.enc = .other := by rw [he]; intro h; rw [h] at hv; cases hv
  have hd : { d with cur := some .le } = d := by cases d; simp at hc; simp [hc]
  unfold decode
  rw [M.bind_apply, M.get_apply]
  simp only [if_neg hne]
  rw [M.bind_apply]
  simp only [setCurD, M.modify_apply]
  rw [hd]
  rcases uintKind_cases h hl with ⟨b, rfl⟩ | ⟨rfl, rfl⟩
  · simp only [decCore, decPlain, ite_self, decScalar]
    cases w <;> simp only [readUintW, readUint8, M.bind_apply] <;> (rcases readByte d with ⟨_ | _ | _, _⟩ <;> rfl)
  · simp only [decCore, decPlain, ite_self, decScalar, readUintW, readUint8, M.bind_apply]
    rcases readByte d with ⟨_ | _ | _, _⟩ <;> rfl

theorem uintW_reads (w : Width) (n : Nat) (h : n < 2 ^ w.bits) : Reads e (readUintW w .le) (fixed .le w.bytes n) n := by
  rw [fixed_eq]
  cases w <;> simp only [readUintW, Width.bytes, Width.bits] at h ⊢
  · have := readUint8_reads e n (by omega)
    rwa [← fixed_one, fixed_eq] at this
  · exact readUint16_reads e .le n h
  · exact readUint32_reads e .le n h
  · exact readUint64_reads e .le n h

theorem uints_inTurn (hv : e.valid = true) {t : Ty} {w : Width} (h : t.uintKind = some w) (hl : t.asLib = none) :
    ∀ (olds xs : List Val) (d d' : Dec), d.Ok → d.enc = e → d.cur = some .le →
    (InTurn t olds xs d d' ↔ xs.length = olds.length ∧ (∀ x ∈ xs, UintElem w x) ∧
      ∃ tail, d.rest = xs.flatMap (uintWire w) ++ tail ∧ d' = d.adv (xs.flatMap (uintWire w)).length)
  | [], xs, d, d', ho, he, hc => by
    constructor
    · intro h; cases h; exact ⟨rfl, by simp, d.rest, by simp, by simp [Dec.adv]⟩
    · rintro ⟨h1, -, tail, -, rfl⟩
      rw [List.eq_nil_of_length_eq_zero h1]
      simp only [List.flatMap_nil, List.length_nil]
      rw [show d.adv 0 = d by simp [Dec.adv]]
      exact .nil _
  | old :: olds, xs, d, d', ho, he, hc => by
    have hd := decode_uint hv h hl old he hc
    constructor
    · intro hin
      cases hin with
      | cons first rest =>
        rename_i x xs d1
        rw [hd, M.bind_apply] at first
        rcases hr : readUintW w .le d with ⟨r, d2⟩
        rw [hr] at first
        cases r <;> simp at first
        rename_i n
        obtain ⟨rfl, rfl⟩ := first
        obtain ⟨bs, tail, h1, rfl, h3, rfl⟩ := uintW_took w d ho he n d2 hr
        obtain ⟨h4, h5, tail', h6, rfl⟩ := (uints_inTurn hv h hl olds xs _ d' (Dec.adv_ok_append ho h1) he hc).1 rest
        rw [Dec.adv_rest_append ho h1] at h6
        refine ⟨by simp [h4], ?_, tail', ?_, ?_⟩
        · intro x hx
          rcases List.mem_cons.mp hx with rfl | hx
          · exact h3
          · exact h5 x hx
        · rw [h1, h6]; simp [uintWire]
        · simp [Dec.adv, uintWire, Int.add_assoc]
    · rintro ⟨h1, h2, tail, h3, rfl⟩
      cases xs with
      | nil => simp at h1
      | cons x xs =>
        have hx := h2 x (by simp)
        cases x <;> simp only [UintElem] at hx
        rename_i n
        rw [List.flatMap_cons, List.append_assoc] at h3
        have hr := uintW_reads w n hx d _ he ho h3
        refine .cons (x := .uint n) (d1 := d.adv (fixed .le w.bytes n).length) ?_
          ((uints_inTurn hv h hl olds xs _ _ (Dec.adv_ok_append ho h3) he hc).2
            ⟨by simpa using h1, fun x hx => h2 x (by simp [hx]), tail, ?_, ?_⟩)
        · rw [hd, M.bind_ok hr]; rfl
        · exact Dec.adv_rest_append ho h3
        · simp [Dec.adv, uintWire, Int.add_assoc]

theorem Prim.repeat {α : Type} {f : DM α} (h : Prim f) : ∀ n, Prim (repeatM f n)
  | 0 => Prim.pure _
  | n + 1 => h.bind fun _ => (Prim.repeat h n).bind fun _ => Prim.pure _

theorem uintW_prim (w : Width) : Prim (readUintW w .le) := by
  cases w
  · exact readUint8_prim
  · exact readUint16_prim .le
  · exact readUint32_prim .le
  · exact readUint64_prim .le

theorem readUints_prim (n : Nat) (w : Width) : Prim (readUints n w) := by
  intro d ho hv
  have key : ∀ r : DM (List Val), Prim r →
      ∃ (res : Res (List Val)) (k : Nat), r d = (res, d.adv k) ∧ res ≠ .panic ∧ k ≤ d.rest.length := fun r h => h d ho hv
  unfold readUints
  rw [M.bind_apply, M.get_apply]
  simp only []
  split
  · exact key _ (Prim.err _)
  · cases w
    · exact key _ ((readNBytes_prim _).bind fun _ => Prim.pure _)
    all_goals
      simp only []
      rw [if_neg (by omega)]
      exact key _ (((uintW_prim _).repeat _).bind fun _ => Prim.pure _)

theorem readUints_inTurn (hv : e.valid = true) {t : Ty} {w : Width} (h : t.uintKind = some w) (hl : t.asLib = none) (n : Nat)
    (olds : List Val) (hn : olds.length = n) (xs : List Val) (d d' : Dec) (ho : d.Ok) (he : d.enc = e) (hc : d.cur = some .le) :
    (readUints n w d = (.ok xs, d') → InTurn t olds xs d d') ∧
    (n < 2 ^ 31 → InTurn t olds xs d d' → readUints n w d = (.ok xs, d')) := by
  obtain ⟨res, k, hk, -, -⟩ := readUints_prim n w d ho (by rw [he]; exact hv)
  constructor
  · intro hr
    obtain ⟨bs, tail, c, h1, h2, -, h3, rfl, h4⟩ := readUints_got (e := e) (o := .le) n w (by omega) d ho he hc (fun _ => rfl) xs d' hr
    rw [hr] at hk
    have h5 : d' = d.adv (List.flatMap (uintWire w) xs).length := by
      have : d'.cur = d.cur := by rw [(Prod.mk.inj hk).2]; rfl
      rw [h2] at this ⊢
      rw [Dec.to_cur] at this
      rw [this, Dec.adv_eq_to]
    exact (uints_inTurn hv h hl olds xs d d' ho he hc).2 ⟨by omega, h4, tail, h1, h5⟩
  · intro hlt hin
    obtain ⟨h1, h2, tail, h3, rfl⟩ := (uints_inTurn hv h hl olds xs d d' ho he hc).1 hin
    obtain ⟨c, -, hr⟩ := readUints_r (e := e) w xs h2 (by omega) d tail he ho h3 (fun _ => hc)
    rw [show (xs.length : Int) = (n : Int) by omega] at hr
    rw [hr] at hk
    have : c = d.cur := by
      have := congrArg Dec.cur (Prod.mk.inj hk).2
      exact this
    rw [hr, this, Dec.adv_eq_to]

end Verif
