import Verif.Spec.Resp
import Verif.Spec.DB

/-! RESP as it is documented, and the larger language this reader takes. -/

namespace Verif.Spec

/-- Neither carriage return nor line feed. -/
def OneLine (d : Bytes) : Prop := (13 : UInt8) ∉ d ∧ (10 : UInt8) ∉ d

mutual
/-- The protocol (version 2): a marker, then text or a decimal number up to CRLF; bulk strings are their length, CRLF, as many bytes and
CRLF; arrays are their length, CRLF and the elements. -/
inductive Wire : Resp → Bytes → Prop where
  | simple {d : Bytes} : OneLine d → Wire (.simple d) (b!"+" ++ d ++ b!"\r\n")
  | error {d : Bytes} : OneLine d → Wire (.error d) (b!"-" ++ d ++ b!"\r\n")
  | int {n : Int} {t : Bytes} : Decimal t n → Wire (.int n) (b!":" ++ t ++ b!"\r\n")
  | bulk {d t : Bytes} : Decimal t d.length → Wire (.bulk d) (b!"$" ++ t ++ b!"\r\n" ++ d ++ b!"\r\n")
  | nullBulk : Wire .nullBulk b!"$-1\r\n"
  | array {items : List Resp} {t b : Bytes} : Decimal t items.length → WireAll items b → Wire (.array items) (b!"*" ++ t ++ b!"\r\n" ++ b)
  | nullArray : Wire .nullArray b!"*-1\r\n"
/-- One after the other. -/
inductive WireAll : List Resp → Bytes → Prop where
  | nil : WireAll [] []
  | cons {o : Resp} {os : List Resp} {b bs : Bytes} : Wire o b → WireAll os bs → WireAll (o :: os) (b ++ bs)
end

mutual
/-- What this server takes for an object. More than the protocol has: single line feeds inside lines, signs and zeros before numbers, any two bytes
after a bulk string, and a negative number of elements (other than -1) for no elements. -/
inductive Taken : Resp → Bytes → Prop where
  | simple {d : Bytes} : LineSafe d → Taken (.simple d) (b!"+" ++ d ++ b!"\r\n")
  | error {d : Bytes} : LineSafe d → Taken (.error d) (b!"-" ++ d ++ b!"\r\n")
  | int {n : Int} {t : Bytes} : IsInt t n → Taken (.int n) (b!":" ++ t ++ b!"\r\n")
  | bulk {d t : Bytes} (x y : UInt8) : IsInt t d.length → d.length + 2 < 2 ^ 63 → Taken (.bulk d) (b!"$" ++ t ++ b!"\r\n" ++ d ++ [x, y])
  | nullBulk {t : Bytes} : IsInt t (-1) → Taken .nullBulk (b!"$" ++ t ++ b!"\r\n")
  | array {items : List Resp} {n : Int} {t b : Bytes} : IsInt t n → n ≠ -1 → n.toNat = items.length → TakenAll items b →
      Taken (.array items) (b!"*" ++ t ++ b!"\r\n" ++ b)
  | nullArray {t : Bytes} : IsInt t (-1) → Taken .nullArray (b!"*" ++ t ++ b!"\r\n")
/-- One after the other. -/
inductive TakenAll : List Resp → Bytes → Prop where
  | nil : TakenAll [] []
  | cons {o : Resp} {os : List Resp} {b bs : Bytes} : Taken o b → TakenAll os bs → TakenAll (o :: os) (b ++ bs)
end

/-- Every simple string and error inside the object is one line. -/
inductive OneLiner : Resp → Prop where
  | simple {d : Bytes} : OneLine d → OneLiner (.simple d)
  | error {d : Bytes} : OneLine d → OneLiner (.error d)
  | int {n : Int} : OneLiner (.int n)
  | bulk {d : Bytes} : OneLiner (.bulk d)
  | nullBulk : OneLiner .nullBulk
  | array {items : List Resp} : (∀ o ∈ items, OneLiner o) → OneLiner (.array items)
  | nullArray : OneLiner .nullArray

end Verif.Spec
