import Verif.Model.Types
/-!
Equality of model values is decidable (used only to evaluate concrete cases).
-/
namespace Verif

mutual
def Val.beq : Val → Val → Bool
  | .bool a, .bool b => a == b
  | .uint a, .uint b => a == b
  | .int a, .int b => a == b
  | .float a, .float b => a == b
  | .str a, .str b => a == b
  | .bytes a, .bytes b => a == b
  | .u128 a b c, .u128 a' b' c' => a == a' && b == b' && c == c'
  | .ptr a, .ptr b => Val.beqO a b
  | .seq a, .seq b => Val.beqOL a b
  | .arr a, .arr b => Val.beqL a b
  | .map a, .map b => Val.beqOP a b
  | .struct a, .struct b => Val.beqL a b
  | .nil, .nil => true
  | _, _ => false
def Val.beqO : Option Val → Option Val → Bool
  | none, none => true
  | some a, some b => a.beq b
  | _, _ => false
def Val.beqOL : Option (List Val) → Option (List Val) → Bool
  | none, none => true
  | some a, some b => Val.beqL a b
  | _, _ => false
def Val.beqL : List Val → List Val → Bool
  | [], [] => true
  | a :: as, b :: bs => a.beq b && Val.beqL as bs
  | _, _ => false
def Val.beqOP : Option (List (Val × Val)) → Option (List (Val × Val)) → Bool
  | none, none => true
  | some a, some b => Val.beqPL a b
  | _, _ => false
def Val.beqPL : List (Val × Val) → List (Val × Val) → Bool
  | [], [] => true
  | a :: as, b :: bs => Val.beqP a b && Val.beqPL as bs
  | _, _ => false
def Val.beqP : Val × Val → Val × Val → Bool
  | (a, b), (c, d) => a.beq c && b.beq d
end

mutual
theorem Val.beq_iff : (a b : Val) → (a.beq b = true ↔ a = b)
  | .bool a, b => by cases b <;> simp [Val.beq]
  | .uint a, b => by cases b <;> simp [Val.beq]
  | .int a, b => by cases b <;> simp [Val.beq]
  | .float a, b => by cases b <;> simp [Val.beq]
  | .str a, b => by cases b <;> simp [Val.beq]
  | .bytes a, b => by cases b <;> simp [Val.beq]
  | .u128 _ _ _, b => by cases b <;> simp [Val.beq, and_assoc]
  | .ptr a, b => by cases b <;> simp [Val.beq, Val.beqO_iff a]
  | .seq a, b => by cases b <;> simp [Val.beq, Val.beqOL_iff a]
  | .arr a, b => by cases b <;> simp [Val.beq, Val.beqL_iff a]
  | .map a, b => by cases b <;> simp [Val.beq, Val.beqOP_iff a]
  | .struct a, b => by cases b <;> simp [Val.beq, Val.beqL_iff a]
  | .nil, b => by cases b <;> simp [Val.beq]
theorem Val.beqO_iff : (a b : Option Val) → (Val.beqO a b = true ↔ a = b)
  | none, b => by cases b <;> simp [Val.beqO]
  | some a, b => by cases b <;> simp [Val.beqO, Val.beq_iff a]
theorem Val.beqOL_iff : (a b : Option (List Val)) → (Val.beqOL a b = true ↔ a = b)
  | none, b => by cases b <;> simp [Val.beqOL]
  | some a, b => by cases b <;> simp [Val.beqOL, Val.beqL_iff a]
theorem Val.beqL_iff : (a b : List Val) → (Val.beqL a b = true ↔ a = b)
  | [], b => by cases b <;> simp [Val.beqL]
  | a :: as, b => by cases b <;> simp [Val.beqL, Val.beq_iff a, Val.beqL_iff as]
theorem Val.beqOP_iff : (a b : Option (List (Val × Val))) → (Val.beqOP a b = true ↔ a = b)
  | none, b => by cases b <;> simp [Val.beqOP]
  | some a, b => by cases b <;> simp [Val.beqOP, Val.beqPL_iff a]
theorem Val.beqPL_iff : (a b : List (Val × Val)) → (Val.beqPL a b = true ↔ a = b)
  | [], b => by cases b <;> simp [Val.beqPL]
  | a :: as, b => by cases b <;> simp [Val.beqPL, Val.beqP_iff a, Val.beqPL_iff as]
theorem Val.beqP_iff : (a b : Val × Val) → (Val.beqP a b = true ↔ a = b)
  | (a, b), (c, d) => by simp [Val.beqP, Val.beq_iff a, Val.beq_iff b]
end

instance : DecidableEq Val := fun a b => decidable_of_iff _ (Val.beq_iff a b)

end Verif
