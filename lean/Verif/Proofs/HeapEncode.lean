import Verif.Model.HeapEncode
import Verif.Spec.HeapEncode
import Verif.Proofs.HeapTree
/-!
# The encoder sees only what a variable shows
-/
namespace Verif.OnHeap
open Spec

mutual
theorem tree_shows {h : Heap} : ∀ {x : HVal} {v : Val} {S : List Nat}, Tree h x v S → Shows h x v
  | _, _, _, .leaf hv => .leaf hv
  | _, _, _, .nilPtr => .nilPtr
  | _, _, _, .ptr hc ht _ => .ptr hc (tree_shows ht)
  | _, _, _, .nilSeq => .nilSeq
  | _, _, _, .seq hc ht _ => .seq hc (trees_shows ht)
  | _, _, _, .arr ht => .arr (trees_shows ht)
  | _, _, _, .nilMap => .nilMap
  | _, _, _, .map hc ht _ => .map hc (pairs_shows ht)
  | _, _, _, .struct ht => .struct (trees_shows ht)
theorem trees_shows {h : Heap} : ∀ {xs : List HVal} {vs : List Val} {S : List Nat}, Trees h xs vs S → ShowsAll h xs vs
  | _, _, _, .nil => .nil
  | _, _, _, .cons hx hxs _ => .cons (tree_shows hx) (trees_shows hxs)
theorem pairs_shows {h : Heap} : ∀ {m : List (HVal × HVal)} {ps : List (Val × Val)} {S : List Nat}, TreePairs h m ps S →
    ShowsPairs h m ps
  | _, _, _, .nil => .nil
  | _, _, _, .cons hk hx hm _ _ => .cons (tree_shows hk) (tree_shows hx) (pairs_shows hm)
end

mutual
/-- A variable shows one value. -/
theorem shows_unique {h : Heap} : ∀ {x : HVal} {v w : Val}, Shows h x v → Shows h x w → v = w
  | _, _, _, .leaf _, h2 => by cases h2; rfl
  | _, _, _, .nilPtr, h2 => by cases h2; rfl
  | _, _, _, .ptr hc ht, h2 => by
    cases h2 with
    | ptr hc' ht' =>
      rw [hc] at hc'
      cases hc'
      rw [shows_unique ht ht']
  | _, _, _, .nilSeq, h2 => by cases h2; rfl
  | _, _, _, .seq hc ht, h2 => by
    cases h2 with
    | seq hc' ht' =>
      rw [hc] at hc'
      cases hc'
      rw [showsAll_unique ht ht']
  | _, _, _, .arr ht, h2 => by
    cases h2 with
    | arr ht' => rw [showsAll_unique ht ht']
  | _, _, _, .nilMap, h2 => by cases h2; rfl
  | _, _, _, .map hc ht, h2 => by
    cases h2 with
    | map hc' ht' =>
      rw [hc] at hc'
      cases hc'
      rw [showsPairs_unique ht ht']
  | _, _, _, .struct ht, h2 => by
    cases h2 with
    | struct ht' => rw [showsAll_unique ht ht']
theorem showsAll_unique {h : Heap} : ∀ {xs : List HVal} {vs ws : List Val}, ShowsAll h xs vs → ShowsAll h xs ws → vs = ws
  | _, _, _, .nil, h2 => by cases h2; rfl
  | _, _, _, .cons hx hxs, h2 => by
    cases h2 with
    | cons hx' hxs' => rw [shows_unique hx hx', showsAll_unique hxs hxs']
theorem showsPairs_unique {h : Heap} : ∀ {m : List (HVal × HVal)} {ps qs : List (Val × Val)}, ShowsPairs h m ps →
    ShowsPairs h m qs → ps = qs
  | _, _, _, .nil, h2 => by cases h2; rfl
  | _, _, _, .cons hk hx hm, h2 => by
    cases h2 with
    | cons hk' hx' hm' => rw [shows_unique hk hk', shows_unique hx hx', showsPairs_unique hm hm']
end

theorem shows_zero {h : Heap} (t : Ty) : Shows h t.zeroH t.zero := tree_shows (tree_zero t)

theorem var_one {h : Heap} {a : Nat} {x : HVal} (hc : h.cell a = .one x) : h.var a = x := by simp [Heap.var, hc]

theorem shows_sizeof {h : Heap} {x : HVal} {v : Val} (k : Kind) (ht : Shows h x v) :
    sizeofVal k x.plain = sizeofVal k v := by
  cases ht <;> cases k <;> simp [HVal.plain, sizeofVal]

theorem shows_scalar {h : Heap} {x : HVal} {v : Val} (e : Encoding) (k : Kind) (o : Order) (ht : Shows h x v) :
    encScalar e k o x.plain = encScalar e k o v := by
  cases ht with
  | leaf => rfl
  | _ =>
    cases k with
    | uint w => cases w <;> simp [HVal.plain, encScalar]
    | int w => cases w <;> simp [HVal.plain, encScalar]
    | _ => simp [HVal.plain, encScalar]

theorem shows_encPlain {h : Heap} {x : HVal} {v : Val} (e : Encoding) (k : Kind) (o : Opt) (ht : Shows h x v) :
    encPlain e k o x.plain = encPlain e k o v := by
  unfold encPlain
  rw [shows_scalar e k _ ht]

theorem shows_lib {h : Heap} {x : HVal} {v : Val} (l : Lib) (ht : Shows h x v) : marshalLib l x.plain = marshalLib l v := by
  cases ht <;> cases l <;> simp [HVal.plain, marshalLib]

theorem shows_libPayload {h : Heap} {x : HVal} {v : Val} (e : Encoding) (l : Lib) (ht : Shows h x v) :
    encLibPayload e l x.plain = encLibPayload e l v := by
  have h1 : encU128Fields x.plain = encU128Fields v := by
    cases ht with
    | leaf => rfl
    | _ => rfl
  unfold encLibPayload
  split
  · exact h1
  · exact h1
  · exact h1
  · rfl
  · rw [shows_scalar e _ _ ht]

theorem shows_libZero {h : Heap} {x : HVal} {v : Val} (l : Lib) (ht : Shows h x v) : l.isZero x.plain = l.isZero v := by
  cases ht <;> cases l <;> simp [HVal.plain, Lib.isZero]

theorem shows_length {h : Heap} {xs : List HVal} {vs : List Val} (ht : ShowsAll h xs vs) : xs.length = vs.length := by
  induction xs generalizing vs with
  | nil => cases ht; rfl
  | cons x xs ih =>
    cases ht with
    | cons _ hxs => simp [ih hxs]

theorem shows_all {h : Heap} {f : Val → Bool} (hf : ∀ {x : HVal} {v : Val}, Shows h x v → f x.plain = f v) :
    ∀ {xs : List HVal} {vs : List Val}, ShowsAll h xs vs → (HVal.plains xs).all f = vs.all f := by
  intro xs
  induction xs with
  | nil => intro vs ht; cases ht; rfl
  | cons x xs ih =>
    intro vs ht
    cases ht with
    | cons hx hxs => simp [HVal.plains, hf hx, ih hxs]

mutual
theorem shows_isZero {h : Heap} : ∀ (t : Ty) {x : HVal} {v : Val}, Shows h x v → t.isZero x.plain = t.isZero v
  | .lib l, _, _, ht => by simp only [Ty.isZero]; exact shows_libZero l ht
  | .array n t, _, _, ht => by
    cases ht with
    | arr hxs =>
      simp only [HVal.plain, Ty.isZero]
      exact shows_all (fun hx => shows_isZero t hx) hxs
    | _ => simp [HVal.plain, Ty.isZero]
  | .struct fs, _, _, ht => by
    cases ht with
    | struct hxs => simp only [HVal.plain, Ty.isZero]; exact shows_allZero fs hxs
    | _ => simp [HVal.plain, Ty.isZero]
  | .ptr _, _, _, ht | .slice _, _, _, ht | .map _ _, _, _, ht | .bool, _, _, ht | .uint _ _, _, _, ht | .int _ _, _, _, ht
  | .borshEnum, _, _, ht | .f32, _, _, ht | .f64, _, _, ht | .str, _, _, ht | .iface, _, _, ht | .plainInt, _, _, ht
  | .plainUint, _, _, ht | .other, _, _, ht => by cases ht <;> simp [HVal.plain, Ty.isZero]
theorem shows_allZero {h : Heap} : ∀ (fs : Fields) {xs : List HVal} {vs : List Val}, ShowsAll h xs vs →
    fs.allZero (HVal.plains xs) = fs.allZero vs
  | .nil, _, _, ht => by cases ht <;> simp [Fields.allZero]
  | .cons _ t fs, _, _, ht => by
    cases ht with
    | nil => rfl
    | cons hx hxs => simp only [HVal.plains, Fields.allZero, shows_isZero t hx, shows_allZero fs hxs]
end

mutual
theorem shows_found {h : Heap} : ∀ (t : Ty) {x : HVal} {v : Val}, Shows h x v → t.found x.plain = t.found v
  | .array n t, _, _, ht => by
    cases ht with
    | arr hxs =>
      simp only [HVal.plain, Ty.found]
      exact shows_all (fun hx => shows_found t hx) hxs
    | _ => simp [HVal.plain, Ty.found]
  | .struct fs, _, _, ht => by
    cases ht with
    | struct hxs => simp only [HVal.plain, Ty.found]; exact shows_foundAll fs hxs
    | _ => simp [HVal.plain, Ty.found]
  | .lib l, _, _, ht => by cases ht <;> cases l <;> simp [HVal.plain, Ty.found]
  | .ptr _, _, _, ht | .slice _, _, _, ht | .map _ _, _, _, ht | .bool, _, _, ht | .uint _ _, _, _, ht | .int _ _, _, _, ht
  | .borshEnum, _, _, ht | .f32, _, _, ht | .f64, _, _, ht | .str, _, _, ht | .iface, _, _, ht | .plainInt, _, _, ht
  | .plainUint, _, _, ht | .other, _, _, ht => by cases ht <;> simp [HVal.plain, Ty.found]
theorem shows_foundAll {h : Heap} : ∀ (fs : Fields) {xs : List HVal} {vs : List Val}, ShowsAll h xs vs →
    fs.found (HVal.plains xs) = fs.found vs
  | .nil, _, _, ht => by cases ht <;> simp [Fields.found]
  | .cons _ t fs, _, _, ht => by
    cases ht with
    | nil => rfl
    | cons hx hxs => simp only [HVal.plains, Fields.found, shows_found t hx, shows_foundAll fs hxs]
end

theorem shows_flags {h : Heap} {x : HVal} {v : Val} (e : Encoding) (t : Ty) (o : Opt) (ht : Shows h x v) :
    encFlags e t o x.plain = encFlags e t o v := by
  unfold encFlags
  rw [shows_isZero t ht]

theorem shows_recordSize {h : Heap} {x : HVal} {v : Val} (m : FieldMeta) (t : Ty) (sm : List (Bytes × Int)) (ht : Shows h x v) :
    (recordSize m t x.plain sm : EM _) = recordSize m t v sm := by
  unfold recordSize
  rw [shows_sizeof _ ht]

theorem shows_keyLt {h : Heap} {x y : HVal} {v w : Val} (k : Kind) (hx : Shows h x v) (hy : Shows h y w) :
    keyLt k x.plain y.plain = keyLt k v w := by
  cases hx with
  | leaf hv =>
    cases hy with
    | leaf hw => rfl
    | _ => cases k <;> cases v <;> simp [HVal.plain, keyLt]
  | _ =>
    cases hy with
    | leaf hw => cases k <;> cases w <;> simp [HVal.plain, keyLt]
    | _ => cases k <;> simp [HVal.plain, keyLt]

theorem shows_insert {h : Heap} (k : Kind) {a x : HVal} {av v : Val} (ha : Shows h a av) (hx : Shows h x v) :
    ∀ {m : List (HVal × HVal)} {ps : List (Val × Val)}, ShowsPairs h m ps →
      ShowsPairs h (insertSortedH k (a, x) m) (insertSorted k (av, v) ps) := by
  intro m
  induction m with
  | nil => intro ps hm; cases hm; exact .cons ha hx .nil
  | cons y m ih =>
    intro ps hm
    cases hm with
    | cons hk hy hm =>
      simp only [insertSortedH, insertSorted, shows_keyLt k hk ha]
      split
      · exact .cons hk hy (ih hm)
      · exact .cons ha hx (.cons hk hy hm)

theorem shows_sort {h : Heap} (k : Kind) : ∀ {m : List (HVal × HVal)} {ps : List (Val × Val)}, ShowsPairs h m ps →
    ShowsPairs h (sortEntriesH k m) (sortEntries k ps) := by
  intro m
  induction m with
  | nil => intro ps hm; cases hm; exact .nil
  | cons y m ih =>
    intro ps hm
    cases hm with
    | cons hk hy hm => exact shows_insert k hk hy (ih hm)

theorem showsPairs_length {h : Heap} {m : List (HVal × HVal)} {ps : List (Val × Val)} (ht : ShowsPairs h m ps) :
    m.length = ps.length := by
  induction m generalizing ps with
  | nil => cases ht; rfl
  | cons x xs ih =>
    cases ht with
    | cons _ _ hm => simp [ih hm]

/-- The entries come in the same order. -/
theorem shows_mapEntries {h : Heap} (e : Encoding) (k : Ty) {m : List (HVal × HVal)} {ps : List (Val × Val)}
    (ht : ShowsPairs h m ps) {f : List (HVal × HVal) → EM Unit} {g : List (Val × Val) → EM Unit}
    (hfg : ∀ {m' : List (HVal × HVal)} {ps' : List (Val × Val)}, ShowsPairs h m' ps' → f m' = g ps') :
    (mapEntriesH e k m >>= f) = (mapEntries e k ps >>= g) := by
  unfold mapEntriesH mapEntries sortedEntries
  rw [showsPairs_length ht]
  split
  · split
    · exact hfg ht
    · split
      · exact hfg (shows_sort _ ht)
      · rfl
  · exact hfg ht

theorem shows_bulk {h : Heap} (w : Width) : ∀ {xs : List HVal} {vs : List Val} (n : Nat), ShowsAll h xs vs →
    mapOpt (bulkBytes w) ((HVal.plains xs).take n) = mapOpt (bulkBytes w) (vs.take n) := by
  intro xs
  induction xs with
  | nil => intro vs n ht; cases ht; rfl
  | cons x xs ih =>
    intro vs n ht
    cases ht with
    | @cons _ v _ vs hx hxs =>
      cases n with
      | zero => rfl
      | succ n =>
        have hb : bulkBytes w x.plain = bulkBytes w v := by cases hx <;> simp [HVal.plain, bulkBytes]
        simp only [HVal.plains, List.take_succ_cons, mapOpt, hb, ih n hxs]

theorem plains_len : ∀ xs : List HVal, (HVal.plains xs).length = xs.length
  | [] => rfl
  | _ :: xs => by simp [HVal.plains, plains_len xs]

theorem shows_writeUints {h : Heap} (l : Int) (w : Width) {xs : List HVal} {vs : List Val} (ht : ShowsAll h xs vs) :
    writeUints l w (HVal.plains xs) = writeUints l w vs := by
  unfold writeUints
  rw [plains_len, shows_length ht, shows_bulk w _ ht]

theorem shows_forIndex {h : Heap} {f : HVal → EM Unit} {g : Val → EM Unit}
    (hfg : ∀ {x : HVal} {v : Val}, Shows h x v → f x = g v) :
    ∀ (n : Nat) {xs : List HVal} {vs : List Val}, ShowsAll h xs vs → forIndexM f n xs = forIndexM g n vs := by
  intro n
  induction n with
  | zero => intro xs vs ht; rfl
  | succ n ih =>
    intro xs vs ht
    cases ht with
    | nil => rfl
    | cons hx hxs => simp only [forIndexM, hfg hx, ih hxs]

theorem shows_forEach {h : Heap} {f : HVal × HVal → EM Unit} {g : Val × Val → EM Unit}
    (hfg : ∀ {a x : HVal} {b v : Val}, Shows h a b → Shows h x v → f (a, x) = g (b, v)) :
    ∀ {m : List (HVal × HVal)} {ps : List (Val × Val)}, ShowsPairs h m ps → forEachM f m = forEachM g ps := by
  intro m
  induction m with
  | nil => intro ps ht; cases ht; rfl
  | cons x m ih =>
    intro ps ht
    cases ht with
    | cons hk hx hm => simp only [forEachM, hfg hk hx, ih hm]

theorem shows_struct {h : Heap} (e : Encoding) (fs : Fields) {xs : List HVal} {vs : List Val} (ht : ShowsAll h xs vs)
    {a b : EM Unit} {f g : Nat → EM Unit} (hab : a = b) (hfg : ∀ i, f i = g i) :
    encStruct e fs (HVal.plains xs) a f = encStruct e fs vs b g := by
  subst hab
  have : f = g := funext hfg
  subst this
  unfold encStruct
  split
  · cases ht with
    | nil => rfl
    | @cons _ v _ _ hx _ =>
      cases hx with
      | leaf => cases v <;> rfl
      | _ => rfl
  · rfl

/-- What lies behind a slice. -/
theorem shows_elems {h : Heap} {p : Option Nat} {q : Option (List Val)} (ht : Shows h (.seq p) (.seq q)) :
    ShowsAll h (h.elems p) (q.getD []) := by
  cases ht with
  | nilSeq => exact .nil
  | seq hc hxs => simpa [Heap.elems, hc] using hxs

theorem shows_entries {h : Heap} {p : Option Nat} {q : Option (List (Val × Val))} (ht : Shows h (.map p) (.map q)) :
    ShowsPairs h (h.entries p) (q.getD []) := by
  cases ht with
  | nilMap => exact .nil
  | map hc hxs => simpa [Heap.entries, hc] using hxs

mutual
/-- The encoder does to the heap what it does to the value shown. -/
theorem shows_enc {h : Heap} (e : Encoding) : ∀ (t : Ty) (o : Opt) {x : HVal} {v : Val}, Shows h x v →
    encH h e t o x = encCore e t o v
  | .lib l, o, _, _, ht => by simp only [encH, encCore]; exact shows_lib l ht
  | .ptr t, o, x, v, ht => by
    cases ht with
    | nilPtr =>
      simp only [encH, encCore, Option.getD_none, shows_enc e t {} (shows_zero (h := h) t)]
      rfl
    | ptr hc hx =>
      simp only [encH, encCore, var_one hc, Option.getD_some, shows_enc e t {} hx, shows_enc e t o hx]
      cases t.asLib with
      | some l => exact shows_lib l hx
      | none => rfl
    | leaf hv => cases v <;> first | exact hv.elim | simp [encH, encCore]
    | _ => simp [encH, encCore]
  | .slice t, o, x, v, ht => by
    have key : ∀ p q, Shows h (.seq p) (.seq q) → encH h e (.slice t) o (.seq p) = encCore e (.slice t) o (.seq q) := by
      intro p q ht
      have hx := shows_elems ht
      have hl : ∀ l : Int, (match t.uintKind with
          | some w => writeUints l w (HVal.plains (h.elems p))
          | none => forIndexM (fun x => do setCurE .le; encH h e t {} x) l.toNat (h.elems p)) =
          (match t.uintKind with
          | some w => writeUints l w (q.getD [])
          | none => forIndexM (fun x => do setCurE .le; encCore e t {} x) l.toNat (q.getD [])) := by
        intro l
        cases t.uintKind with
        | some w => exact shows_writeUints _ _ hx
        | none => exact shows_forIndex (fun hx => by rw [shows_enc e t {} hx]) _ hx
      simp only [encH, encCore, shows_length hx]
      cases o.sizeOf with
      | some s => exact hl s
      | none => exact congrArg (fun f : Unit → EM Unit => writeSeqLen e (q.getD []).length >>= f) (funext fun _ => hl _)
    cases ht with
    | nilSeq => exact key _ _ .nilSeq
    | seq hc hx => exact key _ _ (.seq hc hx)
    | leaf hv => cases v <;> first | exact hv.elim | simp [encH, encCore]
    | _ => simp [encH, encCore]
  | .array n t, o, x, v, ht => by
    cases ht with
    | arr hx =>
      simp only [encH, encCore]
      cases t.uintKind with
      | some w => exact shows_writeUints _ _ hx
      | none => exact shows_forIndex (fun hx => by rw [shows_enc e t {} hx]) _ hx
    | leaf hv => cases v <;> first | exact hv.elim | simp [encH, encCore]
    | _ => simp [encH, encCore]
  | .map k t, o, x, v, ht => by
    have key : ∀ p q, Shows h (.map p) (.map q) → encH h e (.map k t) o (.map p) = encCore e (.map k t) o (.map q) := by
      intro p q ht
      simp only [encH, encCore]
      refine shows_mapEntries e k (shows_entries ht) ?_
      intro m' ps' hm
      rw [showsPairs_length hm]
      congr 1
      funext _
      exact shows_forEach (fun ha hx => by
        simp only [shows_enc e k {} ha, shows_enc e t {} hx, shows_found k ha]) hm
    cases ht with
    | nilMap => exact key _ _ .nilMap
    | map hc hx => exact key _ _ (.map hc hx)
    | leaf hv => cases v <;> first | exact hv.elim | simp [encH, encCore]
    | _ => simp [encH, encCore]
  | .struct fs, o, x, v, ht => by
    cases ht with
    | struct hx =>
      simp only [encH, encCore]
      exact shows_struct e fs hx (shows_encFields e fs [] hx) (fun i => shows_encNth e fs i hx)
    | leaf hv => cases v <;> first | exact hv.elim | simp [encH, encCore]
    | _ => simp [encH, encCore]
  | .iface, o, x, v, ht => by
    cases ht with
    | leaf hv => cases v <;> first | exact hv.elim | simp [encH, encCore]
    | _ => simp [encH, encCore]
  | .bool, o, _, _, ht | .uint _ _, o, _, _, ht | .int _ _, o, _, _, ht | .borshEnum, o, _, _, ht | .f32, o, _, _, ht
  | .f64, o, _, _, ht | .str, o, _, _, ht => by simp only [encH, encCore]; exact shows_encPlain e _ o ht
  | .plainInt, _, _, _, _ | .plainUint, _, _, _, _ | .other, _, _, _, _ => by simp only [encH, encCore]
theorem shows_encFields {h : Heap} (e : Encoding) : ∀ (fs : Fields) (sm : List (Bytes × Int)) {xs : List HVal} {vs : List Val},
    ShowsAll h xs vs → encFieldsH h e fs sm xs = encFields e fs sm vs
  | .nil, _, _, _, _ => by simp only [encFieldsH, encFields]
  | .cons m t fs, sm, _, _, ht => by
    cases ht with
    | nil => simp only [encFieldsH, encFields]
    | cons hx hxs =>
      simp only [encFieldsH, encFields, shows_recordSize m t sm hx, shows_flags e t _ hx, shows_enc e t _ hx,
        shows_encFields e fs _ hxs]
theorem shows_encNth {h : Heap} (e : Encoding) : ∀ (fs : Fields) (i : Nat) {xs : List HVal} {vs : List Val},
    ShowsAll h xs vs → encNthH h e fs i xs = encNth e fs i vs
  | .nil, _, _, _, _ => by simp only [encNthH, encNth]
  | .cons _ t fs, 0, _, _, ht => by
    cases ht with
    | nil => simp only [encNthH, encNth]
    | cons hx _ => simp only [encNthH, encNth]; exact shows_encPayload e t hx
  | .cons _ t fs, i + 1, _, _, ht => by
    cases ht with
    | nil => simp only [encNthH, encNth]
    | cons _ hxs => simp only [encNthH, encNth]; exact shows_encNth e fs i hxs
theorem shows_encPayload {h : Heap} (e : Encoding) : ∀ (t : Ty) {x : HVal} {v : Val}, Shows h x v →
    encPayloadH h e t x = encPayload e t v
  | .ptr t, x, v, ht => by
    cases ht with
    | nilPtr => simp only [encPayloadH, encPayload]
    | ptr hc hx => simp only [encPayloadH, encPayload, var_one hc]; exact shows_encVariant e t hx
    | leaf hv => cases v <;> first | exact hv.elim | simp [encPayloadH, encPayload]
    | _ => simp [encPayloadH, encPayload]
  | .struct fs, x, v, ht => by
    cases ht with
    | struct hx =>
      simp only [encPayloadH, encPayload]
      exact shows_struct e fs hx (shows_encFields e fs [] hx) (fun i => shows_encNth e fs i hx)
    | leaf hv => cases v <;> first | exact hv.elim | simp [encPayloadH, encPayload]
    | _ => simp [encPayloadH, encPayload]
  | .lib l, _, _, ht => by simp only [encPayloadH, encPayload]; exact shows_libPayload e l ht
  | .array _ _, _, _, ht | .slice _, _, _, ht | .map _ _, _, _, ht | .bool, _, _, ht | .uint _ _, _, _, ht
  | .int _ _, _, _, ht | .borshEnum, _, _, ht | .f32, _, _, ht | .f64, _, _, ht | .str, _, _, ht | .iface, _, _, ht
  | .plainInt, _, _, ht | .plainUint, _, _, ht | .other, _, _, ht => by
    simp only [encPayloadH, encPayload, shows_scalar e _ _ ht]
theorem shows_encVariant {h : Heap} (e : Encoding) : ∀ (t : Ty) {x : HVal} {v : Val}, Shows h x v →
    encVariantH h e t x = encVariant e t v
  | .struct fs, x, v, ht => by
    cases ht with
    | struct hx =>
      simp only [encVariantH, encVariant]
      exact shows_struct e fs hx (shows_encFields e fs [] hx) (fun i => shows_encNth e fs i hx)
    | leaf hv => cases v <;> first | exact hv.elim | simp [encVariantH, encVariant]
    | _ => simp [encVariantH, encVariant]
  | .lib l, _, _, ht => by simp only [encVariantH, encVariant]; exact shows_libPayload e l ht
  | .ptr _, _, _, ht | .array _ _, _, _, ht | .slice _, _, _, ht | .map _ _, _, _, ht | .bool, _, _, ht | .uint _ _, _, _, ht
  | .int _ _, _, _, ht | .borshEnum, _, _, ht | .f32, _, _, ht | .f64, _, _, ht | .str, _, _, ht | .iface, _, _, ht
  | .plainInt, _, _, ht | .plainUint, _, _, ht | .other, _, _, ht => by
    simp only [encVariantH, encVariant, shows_scalar e _ _ ht]
end

theorem shows_encode {h : Heap} (t : Ty) {x : HVal} {v : Val} (ht : Shows h x v) : encodeH h t x = encode t v := by
  unfold encodeH encode
  simp only [shows_enc _ t {} ht]

end Verif.OnHeap
