import Verif.Spec.Goroutines
/-!
The encoders that keep a list of events follow the traced ones, and their events are balanced.
-/
set_option linter.unusedSimpArgs false
namespace Verif
open Spec (Balanced)

theorem balanced_append {w w' : List LogEvent} (h : Balanced w) (h' : Balanced w') : Balanced (w ++ w') := by
  induction h with
  | nil => exact h'
  | wrap n h1 _ _ ih2 =>
    rw [List.append_assoc, List.cons_append]
    exact .wrap n h1 ih2

/-- The two calls agree, whatever is in `zlog` and whatever happened before; the events are balanced, and there are none without tracing. -/
def Logs {α : Type} (tr : Bool) (mT : M Traced α) (mL : M Logged α) : Prop :=
  ∀ s, ∃ r s' w, Balanced w ∧ (tr = false → w = []) ∧
    (∀ ns, mT ⟨s, ns⟩ = (r, ⟨s', ns⟩)) ∧ (∀ evs, mL ⟨s, evs⟩ = (r, ⟨s', evs ++ w⟩))

namespace Logs
variable {α β : Type} {tr : Bool}

theorem of (m : EM α) : Logs tr (onEnc m) (onEncL m) := fun s =>
  ⟨(m s).1, (m s).2, [], .nil, fun _ => rfl, fun _ => rfl, fun evs => by rw [List.append_nil]; rfl⟩

theorem lift (r : Res α) : Logs tr (M.lift r) (M.lift r) := fun s =>
  ⟨r, s, [], .nil, fun _ => rfl, fun _ => rfl, fun evs => by rw [List.append_nil]; rfl⟩
theorem pure (a : α) : Logs tr (Pure.pure a) (Pure.pure a) := lift (.ok a)
theorem err (e : Err) : Logs tr (M.err e : M Traced α) (M.err e) := lift (.err e)
theorem panic : Logs tr (M.panic : M Traced α) M.panic := lift .panic

theorem bind {mT : M Traced α} {mL : M Logged α} {fT : α → M Traced β} {fL : α → M Logged β} (h : Logs tr mT mL)
    (hf : ∀ a, Logs tr (fT a) (fL a)) : Logs tr (mT >>= fT) (mL >>= fL) := by
  intro s
  obtain ⟨r, s', w, h1, h2, h3, h4⟩ := h s
  cases r with
  | ok a =>
    obtain ⟨r, s'', w', h5, h6, h7, h8⟩ := hf a s'
    refine ⟨r, s'', w ++ w', balanced_append h1 h5, fun ht => by rw [h2 ht, h6 ht]; rfl, fun ns => ?_, fun evs => ?_⟩
    · rw [M.bind_ok (h3 ns), h7]
    · rw [M.bind_ok (h4 evs), h8, List.append_assoc]
  | err e => exact ⟨.err e, s', w, h1, h2, fun ns => M.bind_err (h3 ns), fun evs => M.bind_err (h4 evs)⟩
  | panic => exact ⟨.panic, s', w, h1, h2, fun ns => M.bind_panic (h3 ns), fun evs => M.bind_panic (h4 evs)⟩

theorem ite {p : Prop} [Decidable p] {aT bT : M Traced α} {a b : M Logged α} (ha : Logs tr aT a) (hb : Logs tr bT b) :
    Logs tr (if p then aT else bT) (if p then a else b) := by
  split
  · exact ha
  · exact hb

theorem named {mT : M Traced α} {m : M Logged α} (h : Logs tr mT m) (n : LogName) : Logs tr (named tr n mT) (namedL tr n m) := by
  cases tr with
  | false => exact h
  | true =>
    intro s
    obtain ⟨r, s', w, h1, h2, h3, h4⟩ := h s
    refine ⟨r, s', .enter n :: w ++ .leave :: [], .wrap n h1 .nil, by simp, fun ns => ?_, fun evs => ?_⟩
    · simp [Verif.named, h3]
    · simp [namedL, h4]

theorem mapDebug (e : Encoding) : Logs tr (mapDebug tr e) (mapDebugL tr e) := by
  unfold Verif.mapDebug mapDebugL
  exact panic.ite (pure ())

theorem forEach {γ : Type} {fT : γ → M Traced Unit} {f : γ → M Logged Unit} (hf : ∀ a, Logs tr (fT a) (f a)) (xs : List γ) :
    Logs tr (forEachM fT xs) (forEachM f xs) := by
  induction xs with
  | nil => exact pure ()
  | cons x xs ih => exact (hf x).bind fun _ => ih

theorem forIndex {γ : Type} {fT : γ → M Traced Unit} {f : γ → M Logged Unit} (hf : ∀ a, Logs tr (fT a) (f a)) (n : Nat) (xs : List γ) :
    Logs tr (forIndexM fT n xs) (forIndexM f n xs) := by
  induction n generalizing xs with
  | zero => exact pure ()
  | succ n ih =>
    cases xs with
    | nil => exact panic
    | cons x xs => exact (hf x).bind fun _ => ih xs

theorem recordSize (m : FieldMeta) (t : Ty) (v : Val) (sm : List (Bytes × Int)) :
    Logs tr (recordSize m t v sm : M Traced _) (Verif.recordSize m t v sm) :=
  (pure _).ite ((lift _).bind fun _ => pure _)

theorem encStruct {e : Encoding} {fs : Fields} {vs : List Val} {fieldsT : M Traced Unit} {nthT : Nat → M Traced Unit} {fields : M Logged Unit}
    {nth : Nat → M Logged Unit} (h1 : Logs tr fieldsT fields) (h2 : ∀ i, Logs tr (nthT i) (nth i)) :
    Logs tr (encStructTr e fs vs fieldsT nthT) (encStructL e fs vs fields nth) := by
  unfold encStructTr encStructL
  split
  · rcases vs with _ | ⟨v, vs⟩
    · exact panic
    · cases v <;> first | exact panic | exact (of (writeByte _)).bind fun _ => (err _).ite (h2 _)
  · exact h1

end Logs

open Logs
mutual
theorem Logs.encCore (tr : Bool) (e : Encoding) : (t : Ty) → (o : Opt) → (v : Val) → Logs tr (encCoreTr tr e t o v) (encCoreL tr e t o v)
  | .lib l, o, v => by simp only [encCoreL, encCoreTr]; exact .of _
  | .ptr t, o, v => by
    cases v <;> simp only [encCoreL, encCoreTr] <;> try exact .panic
    rename_i p
    cases t.asLib with
    | some l =>
      cases p with
      | some x => exact .of _
      | none => exact (Logs.pure ()).ite .panic
    | none =>
      refine Logs.ite ((Logs.of _).bind fun _ => Logs.encCore tr e t _ _) ((Logs.of _).bind fun _ => ?_)
      cases p with
      | none => exact .pure ()
      | some x => exact Logs.encCore tr e t _ _
  | .slice t, o, v => by
    cases v <;> simp only [encCoreL, encCoreTr] <;> try exact .panic
    rename_i xs
    have hb : ∀ l : Int, Logs tr (Verif.named tr .slice (match t.uintKind with
      | some w => onEnc (Verif.writeUints l w (xs.getD []))
      | none => forIndexM (fun x => do onEnc (setCurE .le); encCoreTr tr e t {} x) l.toNat (xs.getD [])))
      (namedL tr .slice (match t.uintKind with
      | some w => onEncL (Verif.writeUints l w (xs.getD []))
      | none => forIndexM (fun x => do onEncL (setCurE .le); encCoreL tr e t {} x) l.toNat (xs.getD []))) := by
      intro l
      apply Logs.named
      cases t.uintKind with
      | some w => exact .of _
      | none => exact .forIndex (fun x => (Logs.of _).bind fun _ => Logs.encCore tr e t _ _) _ _
    cases o.sizeOf with
    | some s => exact hb s
    | none => exact (Logs.of _).bind fun _ => hb _
  | .array n t, o, v => by
    cases v <;> simp only [encCoreL, encCoreTr] <;> try exact .panic
    apply Logs.named
    cases t.uintKind with
    | some w => exact .of _
    | none => exact .forIndex (fun x => (Logs.of _).bind fun _ => Logs.encCore tr e t _ _) _ _
  | .map k t, o, v => by
    cases v <;> simp only [encCoreL, encCoreTr] <;> try exact .panic
    refine (Logs.of _).bind fun m => (Logs.mapDebug e).bind fun _ => ?_
    refine Logs.named ((Logs.of _).bind fun _ => .forEach (fun x => (Logs.of _).bind fun _ => (Logs.encCore tr e k _ _).bind fun _ => ?_) _) _
    split
    · exact (Logs.of _).bind fun _ => Logs.encCore tr e t _ _
    · exact .panic
  | .struct fs, o, v => by
    cases v <;> simp only [encCoreL, encCoreTr] <;> try exact .panic
    exact .encStruct (Logs.encFields tr e fs _ _) fun i => Logs.encNth tr e fs i _
  | .iface, o, v => by
    cases v <;> simp only [encCoreL, encCoreTr] <;> first | exact .panic | exact .pure ()
  | .bool, o, v => by simp only [encCoreL, encCoreTr]; exact .of _
  | .uint w _, o, v => by simp only [encCoreL, encCoreTr]; exact .of _
  | .int w _, o, v => by simp only [encCoreL, encCoreTr]; exact .of _
  | .borshEnum, o, v => by simp only [encCoreL, encCoreTr]; exact .of _
  | .f32, o, v => by simp only [encCoreL, encCoreTr]; exact .of _
  | .f64, o, v => by simp only [encCoreL, encCoreTr]; exact .of _
  | .str, o, v => by simp only [encCoreL, encCoreTr]; exact .of _
  | .plainInt, _, _ => by simp only [encCoreL, encCoreTr]; exact .err _
  | .plainUint, _, _ => by simp only [encCoreL, encCoreTr]; exact .err _
  | .other, _, _ => by simp only [encCoreL, encCoreTr]; exact .err _
termination_by structural t => t
theorem Logs.encFields (tr : Bool) (e : Encoding) : (fs : Fields) → (sm : List (Bytes × Int)) → (vs : List Val) →
    Logs tr (encFieldsTr tr e fs sm vs) (encFieldsL tr e fs sm vs)
  | .nil, _, _ => by simp only [encFieldsL, encFieldsTr]; exact .pure ()
  | .cons _ _ _, _, [] => by simp only [encFieldsL, encFieldsTr]; exact .panic
  | .cons m t fs, sm, v :: vs => by
    simp only [encFieldsL, encFieldsTr]
    refine Logs.ite (Logs.encFields tr e fs sm vs) ((Logs.recordSize _ _ _ _).bind fun sm => ?_)
    refine Logs.ite ((Logs.of _).bind fun _ => (Logs.of _).bind fun more => ?_) (Logs.encFields tr e fs sm vs)
    exact Logs.ite ((Logs.encCore tr e t _ _).bind fun _ => Logs.encFields tr e fs sm vs) (Logs.encFields tr e fs sm vs)
termination_by structural fs => fs
theorem Logs.encNth (tr : Bool) (e : Encoding) : (fs : Fields) → (i : Nat) → (vs : List Val) →
    Logs tr (encNthTr tr e fs i vs) (encNthL tr e fs i vs)
  | .nil, i, vs => by simp only [encNthL, encNthTr]; exact .panic
  | .cons _ t _, 0, [] => by simp only [encNthL, encNthTr]; exact .panic
  | .cons _ t _, 0, v :: _ => by simp only [encNthL, encNthTr]; exact Logs.encPayload tr e t v
  | .cons _ _ fs, i + 1, [] => by simp only [encNthL, encNthTr]; exact .panic
  | .cons _ _ fs, i + 1, _ :: vs => by simp only [encNthL, encNthTr]; exact Logs.encNth tr e fs i vs
termination_by structural fs => fs
theorem Logs.encPayload (tr : Bool) (e : Encoding) : (t : Ty) → (v : Val) → Logs tr (encPayloadTr tr e t v) (encPayloadL tr e t v)
  | .ptr t, v => by
    cases v <;> simp only [encPayloadL, encPayloadTr] <;> try exact .panic
    rename_i p
    cases p with
    | none => exact .pure ()
    | some x => exact Logs.encVariant tr e t x
  | .struct fs, v => by
    cases v <;> simp only [encPayloadL, encPayloadTr] <;> try exact .panic
    exact .encStruct (Logs.encFields tr e fs _ _) fun i => Logs.encNth tr e fs i _
  | .lib l, v => by simp only [encPayloadL, encPayloadTr]; exact .of _
  | .bool, v => by simp only [encPayloadL, encPayloadTr]; exact .of _
  | .uint _ _, v => by simp only [encPayloadL, encPayloadTr]; exact .of _
  | .int _ _, v => by simp only [encPayloadL, encPayloadTr]; exact .of _
  | .borshEnum, v => by simp only [encPayloadL, encPayloadTr]; exact .of _
  | .f32, v => by simp only [encPayloadL, encPayloadTr]; exact .of _
  | .f64, v => by simp only [encPayloadL, encPayloadTr]; exact .of _
  | .str, v => by simp only [encPayloadL, encPayloadTr]; exact .of _
  | .slice _, v => by simp only [encPayloadL, encPayloadTr]; exact .of _
  | .array _ _, v => by simp only [encPayloadL, encPayloadTr]; exact .of _
  | .map _ _, v => by simp only [encPayloadL, encPayloadTr]; exact .of _
  | .iface, v => by simp only [encPayloadL, encPayloadTr]; exact .of _
  | .plainInt, v => by simp only [encPayloadL, encPayloadTr]; exact .of _
  | .plainUint, v => by simp only [encPayloadL, encPayloadTr]; exact .of _
  | .other, v => by simp only [encPayloadL, encPayloadTr]; exact .of _
termination_by structural t => t
theorem Logs.encVariant (tr : Bool) (e : Encoding) : (t : Ty) → (v : Val) → Logs tr (encVariantTr tr e t v) (encVariantL tr e t v)
  | .struct fs, v => by
    cases v <;> simp only [encVariantL, encVariantTr] <;> try exact .panic
    exact .encStruct (Logs.encFields tr e fs _ _) fun i => Logs.encNth tr e fs i _
  | .lib l, v => by simp only [encVariantL, encVariantTr]; exact .of _
  | .bool, v => by simp only [encVariantL, encVariantTr]; exact .of _
  | .uint _ _, v => by simp only [encVariantL, encVariantTr]; exact .of _
  | .int _ _, v => by simp only [encVariantL, encVariantTr]; exact .of _
  | .borshEnum, v => by simp only [encVariantL, encVariantTr]; exact .of _
  | .f32, v => by simp only [encVariantL, encVariantTr]; exact .of _
  | .f64, v => by simp only [encVariantL, encVariantTr]; exact .of _
  | .str, v => by simp only [encVariantL, encVariantTr]; exact .of _
  | .slice _, v => by simp only [encVariantL, encVariantTr]; exact .of _
  | .array _ _, v => by simp only [encVariantL, encVariantTr]; exact .of _
  | .map _ _, v => by simp only [encVariantL, encVariantTr]; exact .of _
  | .iface, v => by simp only [encVariantL, encVariantTr]; exact .of _
  | .plainInt, v => by simp only [encVariantL, encVariantTr]; exact .of _
  | .plainUint, v => by simp only [encVariantL, encVariantTr]; exact .of _
  | .other, v => by simp only [encVariantL, encVariantTr]; exact .of _
  | .ptr _, v => by simp only [encVariantL, encVariantTr]; exact .of _
termination_by structural t => t
end

theorem Logs.encode (tr : Bool) (t : Ty) (v : Val) : Logs tr (encodeTr tr t v) (encodeL tr t v) := by
  intro s
  by_cases h : s.enc = .other
  · refine ⟨.panic, s, [], .nil, fun _ => rfl, fun ns => ?_, fun evs => ?_⟩
    · simp [encodeTr, M.bind_apply, h]
    · simp [encodeL, M.bind_apply, h]
  · have h1 : ∀ ns, encodeTr tr t v ⟨s, ns⟩ = (onEnc (setCurE .le) >>= fun _ => encCoreTr tr s.enc t {} v) ⟨s, ns⟩ := by
      intro ns; unfold encodeTr; rw [M.bind_ok (M.get_apply _)]; simp [h]
    have h2 : ∀ evs, encodeL tr t v ⟨s, evs⟩ = (onEncL (setCurE .le) >>= fun _ => encCoreL tr s.enc t {} v) ⟨s, evs⟩ := by
      intro evs; unfold encodeL; rw [M.bind_ok (M.get_apply _)]; simp [h]
    obtain ⟨r, s', w, h3, h4, h5, h6⟩ := ((Logs.of (setCurE .le)).bind fun _ => Logs.encCore tr s.enc t {} v) s
    exact ⟨r, s', w, h3, h4, fun ns => by rw [h1, h5], fun evs => by rw [h2, h6]⟩

/-! ### schedules -/

/-- A receiver is stored only right after it has been loaded; `b`: it has just been loaded. -/
def InOrder (b : Bool) : List LogOp → Prop
  | [] => True
  | .loadPrev :: r => InOrder false r
  | .loadCur :: r => InOrder true r
  | .store _ :: r => b = true ∧ InOrder false r
  | .restore :: r => InOrder false r

theorem inOrder_ops : ∀ (es : List LogEvent) (b : Bool), InOrder b (es.flatMap LogEvent.ops)
  | [], _ => trivial
  | .enter _ :: es, _ => ⟨rfl, inOrder_ops es false⟩
  | .leave :: es, _ => inOrder_ops es false

/-- Whatever the goroutine has loaded starts with `ns`. -/
def Goroutine.Holds (ns : List LogName) (g : Goroutine) : Prop :=
  (∀ p ∈ g.prevs, ns <+: p) ∧ ∃ b, InOrder b g.todo ∧ (b = true → ns <+: g.cur)

theorem holds_new (ns : List LogName) (es : List LogEvent) : (Goroutine.new es).Holds ns :=
  ⟨by simp [Goroutine.new], false, inOrder_ops es false, by simp⟩

theorem holds_step {ns z : List LogName} {g : Goroutine} (h : g.Holds ns) (hz : ns <+: z) : (g.step z).1.Holds ns ∧ ns <+: (g.step z).2 := by
  obtain ⟨todo, prevs, cur⟩ := g
  obtain ⟨h1, b, h2, h3⟩ := h
  simp only at h1 h2 h3
  unfold Goroutine.step
  rcases todo with _ | ⟨op, r⟩
  · exact ⟨⟨h1, b, h2, h3⟩, hz⟩
  · cases op with
    | loadPrev =>
      refine ⟨⟨fun p hp => ?_, false, h2, by simp⟩, hz⟩
      rcases List.mem_cons.mp hp with rfl | hp
      · exact hz
      · exact h1 p hp
    | loadCur => exact ⟨⟨h1, true, h2, fun _ => hz⟩, hz⟩
    | store n => exact ⟨⟨h1, false, h2.2, by simp⟩, (h3 h2.1).trans (List.prefix_append _ _)⟩
    | restore =>
      cases prevs with
      | nil => exact ⟨⟨h1, false, h2, by simp⟩, hz⟩
      | cons p ps => exact ⟨⟨fun q hq => h1 q (List.mem_cons_of_mem _ hq), false, h2, by simp⟩, h1 p (List.mem_cons_self ..)⟩

theorem holds_run {ns : List LogName} : ∀ (sched : List Nat) (gs : List Goroutine) (z : List LogName), (∀ g ∈ gs, g.Holds ns) → ns <+: z →
    ns <+: (runSchedule sched gs z).2
  | [], _, _, _, hz => hz
  | i :: sched, gs, z, hg, hz => by
    unfold runSchedule
    cases hi : gs[i]? with
    | none => exact holds_run sched gs z hg hz
    | some g =>
      have h1 := holds_step (hg g (List.mem_of_getElem? hi)) hz
      refine holds_run sched _ _ (fun g' hg' => ?_) h1.2
      rcases List.mem_or_eq_of_mem_set hg' with h | rfl
      · exact hg g' h
      · exact h1.1

/-- Several accesses of one goroutine, nobody else's between them. -/
def Goroutine.steps : Nat → Goroutine → List LogName → Goroutine × List LogName
  | 0, g, z => (g, z)
  | k + 1, g, z => Goroutine.steps k (g.step z).1 (g.step z).2

theorem steps_add : ∀ (a b : Nat) (g : Goroutine) (z : List LogName),
    Goroutine.steps (a + b) g z = Goroutine.steps b (Goroutine.steps a g z).1 (Goroutine.steps a g z).2
  | 0, b, g, z => by rw [Nat.zero_add]; rfl
  | a + 1, b, g, z => by rw [Nat.succ_add_eq_add_succ, Nat.add_succ]; exact steps_add a b _ _

theorem run_turn : ∀ (k i : Nat) (rest : List Nat) (gs : List Goroutine) (g : Goroutine) (z : List LogName), gs[i]? = some g →
    runSchedule (List.replicate k i ++ rest) gs z = runSchedule rest (gs.set i (g.steps k z).1) (g.steps k z).2
  | 0, i, rest, gs, g, z, h => by
    have : gs.set i g = gs := by
      apply List.ext_getElem?
      intro j
      rw [List.getElem?_set]
      by_cases hj : i = j
      · subst hj
        have hl := (List.getElem?_eq_some_iff.mp h).1
        rw [if_pos rfl, if_pos hl, h]
      · simp [hj]
    simp [Goroutine.steps, this]
  | k + 1, i, rest, gs, g, z, h => by
    have hl := (List.getElem?_eq_some_iff.mp h).1
    rw [List.replicate_succ, List.cons_append, runSchedule, h]
    simp only
    rw [run_turn k i rest (gs.set i (g.step z).1) (g.step z).1 (g.step z).2 (by rw [List.getElem?_set]; simp [hl]), List.set_set]
    rfl

/-- A balanced piece of work, done without interruption, leaves `zlog` as it was. -/
theorem steps_balanced {w : List LogEvent} (h : Balanced w) : ∀ (r : List LogOp) (ps : List (List LogName)) (c z : List LogName),
    ∃ c', Goroutine.steps (w.flatMap LogEvent.ops).length ⟨w.flatMap LogEvent.ops ++ r, ps, c⟩ z = (⟨r, ps, c'⟩, z) := by
  induction h with
  | nil => intro r ps c z; exact ⟨c, rfl⟩
  | @wrap n w w' _ _ ih1 ih2 =>
    intro r ps c z
    obtain ⟨c1, h1⟩ := ih1 (.restore :: (w'.flatMap LogEvent.ops ++ r)) (z :: ps) z (z ++ [n])
    obtain ⟨c2, h2⟩ := ih2 r ps c1 z
    refine ⟨c2, ?_⟩
    have hw : (LogEvent.enter n :: w ++ .leave :: w').flatMap LogEvent.ops =
        [.loadPrev, .loadCur, .store n] ++ (w.flatMap LogEvent.ops ++ (.restore :: w'.flatMap LogEvent.ops)) := by
      simp [List.flatMap_append, LogEvent.ops]
    rw [hw]
    have hlen : ([.loadPrev, .loadCur, .store n] ++ (w.flatMap LogEvent.ops ++ (.restore :: w'.flatMap LogEvent.ops)) : List LogOp).length =
        3 + ((w.flatMap LogEvent.ops).length + (1 + (w'.flatMap LogEvent.ops).length)) := by simp; omega
    rw [hlen, steps_add]
    have h3 : Goroutine.steps 3 ⟨[.loadPrev, .loadCur, .store n] ++ (w.flatMap LogEvent.ops ++ (.restore :: w'.flatMap LogEvent.ops)) ++ r, ps, c⟩ z =
        (⟨w.flatMap LogEvent.ops ++ (.restore :: (w'.flatMap LogEvent.ops ++ r)), z :: ps, z⟩, z ++ [n]) := by
      simp [Goroutine.steps, Goroutine.step]
    rw [h3, steps_add, h1, steps_add]
    exact h2

theorem steps_done (k : Nat) (ps : List (List LogName)) (c z : List LogName) : Goroutine.steps k ⟨[], ps, c⟩ z = (⟨[], ps, c⟩, z) := by
  induction k with
  | zero => rfl
  | succ k ih => exact ih

/-- A goroutine that has not begun, or is done. -/
def Goroutine.Rests (g₀ g : Goroutine) : Prop := g = g₀ ∨ g.todo = []

theorem run_turns {gs₀ : List Goroutine} (h₀ : ∀ g ∈ gs₀, ∃ w, Balanced w ∧ g = Goroutine.new w) : ∀ (is : List Nat) (gs : List Goroutine)
    (z : List LogName), (∀ (i : Nat) (g : Goroutine), gs[i]? = some g → ∃ g₀ : Goroutine, gs₀[i]? = some g₀ ∧ g₀.Rests g) → (∀ i : Nat, gs[i]? = none → gs₀[i]? = none) →
    (runSchedule (Spec.inTurns gs₀ is) gs z).2 = z
  | [], gs, z, _, _ => rfl
  | i :: is, gs, z, h, hn => by
    unfold Spec.inTurns
    rw [List.flatMap_cons]
    cases hi : gs[i]? with
    | none =>
      rw [hn i hi]
      exact run_turns h₀ is gs z h hn
    | some g =>
      obtain ⟨g₀, h1, h2⟩ := h i g hi
      rw [h1, run_turn _ _ _ _ _ _ hi]
      have hl := (List.getElem?_eq_some_iff.mp hi).1
      have hdone : ∃ g' : Goroutine, g'.todo = [] ∧ Goroutine.steps ((some g₀).map fun g => g.todo.length).get! g z = (g', z) := by
        rcases h2 with rfl | h2
        · obtain ⟨w, hw, rfl⟩ := h₀ g (List.mem_of_getElem? h1)
          obtain ⟨c', h3⟩ := steps_balanced hw [] [] [] z
          refine ⟨⟨[], [], c'⟩, rfl, ?_⟩
          rw [List.append_nil] at h3
          exact h3
        · obtain ⟨todo, ps, c⟩ := g
          simp only at h2; subst h2
          exact ⟨⟨[], ps, c⟩, rfl, steps_done _ ps c z⟩
      obtain ⟨g', h3, h4⟩ := hdone
      have h5 : Goroutine.steps (((some g₀).map fun g => g.todo.length).getD 0) g z = (g', z) := h4
      rw [h5]
      refine run_turns h₀ is (gs.set i g') z (fun j g'' hj => ?_) (fun j hj => ?_)
      · rw [List.getElem?_set] at hj
        by_cases hij : i = j
        · subst hij
          simp [hl] at hj
          subst hj
          exact ⟨g₀, h1, Or.inr h3⟩
        · simp [hij] at hj
          exact h j g'' hj
      · rw [List.getElem?_set] at hj
        by_cases hij : i = j
        · subst hij; simp [hl] at hj
        · simp [hij] at hj
          exact hn j (by simpa using hj)

end Verif
