import Verif.Model.Message

/-! # Specification of the remote protocol -/

namespace PF.Spec

/-- Four bytes, least significant first. -/
def le32 (n : Nat) : List Byte :=
  [BitVec.ofNat 8 n, BitVec.ofNat 8 (n / 256), BitVec.ofNat 8 (n / 65536), BitVec.ofNat 8 (n / 16777216)]

/-- Sum of bytes. -/
def byteSum : List Byte → Nat
  | [] => 0
  | b :: bs => b.toNat + byteSum bs

/-- A frame: sync word BE BA, size of what is between it and the checksum, identifier, data, and the
sum modulo 256 of the identifier and the data. -/
def frame (id : Byte) (data : List Byte) : List Byte :=
  [0xBE#8, 0xBA#8] ++ le32 (1 + data.length) ++ [id] ++ data ++ [BitVec.ofNat 8 (byteSum (id :: data))]

/-- `Texts ts data`: `data` is made of the texts `ts`, each after its length. -/
inductive Texts : List BText → List Byte → Prop
  | nil : Texts [] []
  | cons (t : BText) (ts : List BText) (data : List Byte) (ht : t.length < 2 ^ 32) (h : Texts ts data) :
      Texts (t :: ts) (le32 t.length ++ t ++ data)

/-- A text that has no NUL byte. -/
def NoNul (t : BText) : Prop := 0#8 ∉ t

/-- White space: space, tab, newline, vertical tab, form feed, carriage return. -/
def IsSpace (b : Byte) : Prop := b = 0x20#8 ∨ b = 9#8 ∨ b = 10#8 ∨ b = 11#8 ∨ b = 12#8 ∨ b = 13#8

/-- A text that has no white space at its ends. -/
def Trimmed (t : BText) : Prop :=
  (∀ b, t.head? = some b → ¬ IsSpace b) ∧ (∀ b, t.getLast? = some b → ¬ IsSpace b)

/-- Number of bytes of the texts of a request with their lengths. -/
def textsSize : List BText → Nat
  | [] => 0
  | t :: ts => 4 + t.length + textsSize ts

/-- A request that the protocol can carry: texts with no NUL and no white space at their ends, and
less than 4 GiB in all. -/
def Carried (r : Request) : Prop :=
  (∀ t ∈ r.command :: r.arguments, NoNul t ∧ Trimmed t) ∧ textsSize (r.command :: r.arguments) + 1 < 2 ^ 32

/-- An answer that the protocol can carry. -/
def CarriedAnswer (a : Answer) : Prop := NoNul a.text ∧ a.text.length + 5 < 2 ^ 32

/-- The bytes of several requests, one after the other. -/
def requestBytes : List Request → List Byte → Prop
  | [], bs => bs = []
  | r :: rs, bs => ∃ a b, r.send = .ok a ∧ requestBytes rs b ∧ bs = a ++ b

/-- What a client reads: the answers, in order, and then nothing. -/
def answerBytes : List Answer → List Byte → Prop
  | [], bs => receiveAnswer bs = .peerDisconnected
  | a :: as, bs => ∃ rest, receiveAnswer bs = .success a rest ∧ answerBytes as rest

/-- Handling requests one after the other, up to one that stops the program: final state, answers, and
how it ends. -/
def handleAll {σ : Type} (handle : σ → Request → Option Answer × σ) : σ → List Request → σ × List Answer × Served
  | x, [] => (x, [], .closed)
  | x, r :: rs =>
    match (handle x r).1 with
    | none => ((handle x r).2, [], .abort)
    | some a =>
      let y := handleAll handle (handle x r).2 rs
      (y.1, a :: y.2.1, y.2.2)

end PF.Spec
