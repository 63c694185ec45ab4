import Verif.Model.Kserd
/-!
# Mutable accessors and `Accessor` — `/repo/src/ds/val.rs` 289-640, 800-1030

A mutable reference `&mut T` into a value is modelled by what it can do: the data currently there and the whole
value after other data has been written through it. `str_mut`/`barr_mut` call `Cow::to_mut`, which keeps the data.
-/

namespace KS

/-- `&mut τ` borrowed from inside a `σ`. -/
structure MutRef (σ τ : Type) where
  cur : τ
  put : τ → σ

/-- A reference inside a reference. -/
def MutRef.focus {ρ σ τ : Type} (r : MutRef ρ σ) (i : MutRef σ τ) : MutRef ρ τ := ⟨i.cur, fun x => r.put (i.put x)⟩

namespace Value

/-- `bool_mut`, 305-310 -/
def boolMut : Value → Option (MutRef Value Bool)
  | .bool b => some ⟨b, .bool⟩
  | _ => none

/-- `num_mut`, 385-390 -/
def numMut : Value → Option (MutRef Value Number)
  | .num b => some ⟨b, .num⟩
  | _ => none

/-- `str_mut`, 418-423 -/
def strMut : Value → Option (MutRef Value Str)
  | .str b => some ⟨b, .str⟩
  | _ => none

/-- `barr_mut`, 451-456 -/
def barrMut : Value → Option (MutRef Value Bytes)
  | .barr b => some ⟨b, .barr⟩
  | _ => none

/-- `tuple_mut`, 484-489 -/
def tupleMut : Value → Option (MutRef Value (List Kserd))
  | .tuple b => some ⟨b, .tuple⟩
  | _ => none

/-- `cntr_mut`, 523-528 -/
def cntrMut : Value → Option (MutRef Value Fields)
  | .cntr b => some ⟨b, .cntr⟩
  | _ => none

/-- `seq_mut`, 557-562 -/
def seqMut : Value → Option (MutRef Value (List Kserd))
  | .seq b => some ⟨b, .seq⟩
  | _ => none

/-- `tuple_or_seq_mut`, 596-601 -/
def tupleOrSeqMut : Value → Option (MutRef Value (List Kserd))
  | .tuple b => some ⟨b, .tuple⟩
  | .seq b => some ⟨b, .seq⟩
  | _ => none

/-- `map_mut`, 646-651 -/
def mapMut : Value → Option (MutRef Value KMap)
  | .map b => some ⟨b, .map⟩
  | _ => none

end Value

/-- `DerefMut for Kserd`, `/repo/src/ds/kserd.rs` 290-294: the value inside. -/
def Kserd.valMut : Kserd → MutRef Kserd Value
  | .mk i v => ⟨v, .mk i⟩

namespace Access

/-- `BTreeMap::get` on fields (through `Deref`), 815-830. -/
def get (f : Fields) (name : Str) : Option Kserd := BTree.get cmpStr name f

/-- `BTreeMap::get_mut` on fields. -/
def getMut (f : Fields) (name : Str) : Option (MutRef Fields Kserd) :=
  (get f name).map (fun k => ⟨k, fun k' => BTree.set cmpStr name k' f⟩)

/-- The shape shared by all `get_*`, 843-937: `self.get(name).and_then(..)`. -/
def getWith {τ : Type} (a : Value → Option τ) (f : Fields) (name : Str) : Option τ :=
  (get f name).bind (fun k => a k.val)

/-- The shape shared by all `get_*_mut`, 945-1028: `self.get_mut(name).and_then(..)`. -/
def getWithMut {τ : Type} (a : Value → Option (MutRef Value τ)) (f : Fields) (name : Str) : Option (MutRef Fields τ) :=
  (getMut f name).bind (fun r => (a r.cur.val).map (fun i => (r.focus r.cur.valMut).focus i))

/-- `get_unit`, 843-850 -/
def getUnit (f : Fields) (name : Str) : Option Unit := getWith (fun v => if v.unit? then some () else none) f name
/-- `get_bool`, 853-859 -/
def getBool := getWith Value.bool?
/-- `get_num`, 862-871 -/
def getNum := getWith Value.num?
/-- `get_str`, 874-881 -/
def getStr := getWith Value.str?
/-- `get_barr`, 884-891 -/
def getBarr := getWith Value.barr?
/-- `get_tuple`, 894-900 -/
def getTuple := getWith Value.tuple?
/-- `get_seq`, 903-909 -/
def getSeq := getWith Value.seq?
/-- `get_tuple_or_seq`, 912-918 -/
def getTupleOrSeq := getWith Value.tupleOrSeq?
/-- `get_cntr`, 921-927 -/
def getCntr := getWith Value.cntr?
/-- `get_map`, 930-936 -/
def getMap := getWith Value.map?

/-- `get_bool_mut`, 945-952 -/
def getBoolMut := getWithMut Value.boolMut
/-- `get_num_mut`, 955-962 -/
def getNumMut := getWithMut Value.numMut
/-- `get_str_mut`, 965-972 -/
def getStrMut := getWithMut Value.strMut
/-- `get_barr_mut`, 975-982 -/
def getBarrMut := getWithMut Value.barrMut
/-- `get_tuple_mut`, 985-991 -/
def getTupleMut := getWithMut Value.tupleMut
/-- `get_seq_mut`, 994-1000 -/
def getSeqMut := getWithMut Value.seqMut
/-- `get_tuple_or_seq_mut`, 1003-1009 -/
def getTupleOrSeqMut := getWithMut Value.tupleOrSeqMut
/-- `get_cntr_mut`, 1012-1018 -/
def getCntrMut := getWithMut Value.cntrMut
/-- `get_map_mut`, 1021-1027 -/
def getMapMut := getWithMut Value.mapMut

end Access
end KS
