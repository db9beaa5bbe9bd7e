import Verif.Enc.Json
/-!
# What a JSON round trip should give
-/
set_option autoImplicit false
namespace Verif.Enc
open Verif.Strconv

/-- What is assumed of the standard library on floats: the text `json.Marshal` writes is a JSON number, and `ParseFloat` reads it back. -/
structure Laws (X : Ext) : Prop where
  fJson_number : ∀ f t, X.fJson f = some t → isNumber t = true
  fParse_fJson : ∀ f t, X.fJson f = some t → X.fParse t = some f

mutual
/-- Maps have distinct keys, kept in increasing order. -/
def Node.WF {X : Ext} : Node X → Prop
  | .list l => Node.listWF l
  | .map m => SortedKeys m ∧ Node.mapWF m
  | .pairs l => Node.pairsWF l
  | _ => True
def Node.listWF {X : Ext} : List (Node X) → Prop
  | [] => True
  | n :: l => n.WF ∧ Node.listWF l
def Node.mapWF {X : Ext} : List (Str × Node X) → Prop
  | [] => True
  | (_, n) :: l => n.WF ∧ Node.mapWF l
def Node.pairsWF {X : Ext} : List ((Str × Str) × Node X) → Prop
  | [] => True
  | (_, n) :: l => n.WF ∧ Node.pairsWF l
end

mutual
/-- The representation changes JSON imposes: numbers become their digits, pairs become maps under their JSON names, times and durations
become their text. -/
def Node.norm {X : Ext} : Node X → Node X
  | .int i => .digits (fmtInt i)
  | .float f => .digits ((X.fJson f).getD [])
  | .list l => .list (Node.listNorm l)
  | .map m => .map (Node.mapNorm m)
  | .pairs l => .map (ofEntries (Node.pairsNorm l))
  | .time t => .str (X.tFmt t)
  | .dur d => .str (if d = 0 then [] else X.dStr d)
  | .nil => .nil
  | .bool b => .bool b
  | .str s => .str s
  | .digits s => .digits s
def Node.listNorm {X : Ext} : List (Node X) → List (Node X)
  | [] => []
  | n :: l => n.norm :: Node.listNorm l
def Node.mapNorm {X : Ext} : List (Str × Node X) → List (Str × Node X)
  | [] => []
  | (k, n) :: l => (k, n.norm) :: Node.mapNorm l
def Node.pairsNorm {X : Ext} : List ((Str × Str) × Node X) → List (Str × Node X)
  | [] => []
  | ((_, k), n) :: l => (k, n.norm) :: Node.pairsNorm l
end

mutual
/-- Built only of nil, booleans, strings, digits, lists and maps. -/
def Node.plain {X : Ext} : Node X → Bool
  | .nil | .bool _ | .str _ | .digits _ => true
  | .list l => Node.listPlain l
  | .map m => Node.mapPlain m
  | _ => false
def Node.listPlain {X : Ext} : List (Node X) → Bool
  | [] => true
  | n :: l => n.plain && Node.listPlain l
def Node.mapPlain {X : Ext} : List (Str × Node X) → Bool
  | [] => true
  | (_, n) :: l => n.plain && Node.mapPlain l
end

end Verif.Enc
