import Verif.Model.Hash

/-
`sparse_namespaced_features.rs` and `object_pool.rs`.
-/

namespace Rml

/-- `SparseFeaturesNamespace` (`sparse_namespaced_features.rs:60-69`). -/
structure NsFeats (F : Type) where
  namespace_ : Namespace
  idx : RVec U32
  vals : RVec F
  active : Bool
  deriving DecidableEq, Repr

namespace NsFeats
variable {F : Type}

/-- `SparseFeaturesNamespace::iter` collected (`sparse_namespaced_features.rs:38-58, 90-95`): stops at the shorter
of the two vectors. -/
def iter (n : NsFeats F) : List (U32 × F) := n.idx.data.zip n.vals.data

/-- `new` (`sparse_namespaced_features.rs:105-112`). -/
def new (ns : Namespace) : NsFeats F := ⟨ns, .new, .new, false⟩

/-- `new_with_capacity` (`sparse_namespaced_features.rs:114-121`). -/
def newWithCapacity (ns : Namespace) (cap : Nat) : NsFeats F := ⟨ns, .withCapacity cap, .withCapacity cap, false⟩

/-- `size` (`sparse_namespaced_features.rs:123-125`). -/
def size (n : NsFeats F) : Nat := n.idx.data.length

/-- `reserve` (`sparse_namespaced_features.rs:131-136`). `size - capacity` on `usize`: in the debug profile it panics
on underflow, in the release profile the wrapped value makes `reserve_exact` panic with a capacity overflow, so a panic
in both. -/
def reserve (n : NsFeats F) (size : Nat) : M (NsFeats F) :=
  if size < n.idx.cap then .error .overflow
  else
    let idx := n.idx.reserveExact (size - n.idx.cap)
    if size < n.vals.cap then .error .overflow
    else .ok { n with idx := idx, vals := n.vals.reserve (size - n.vals.cap) }

/-- `add_feature` (`sparse_namespaced_features.rs:138-141`). -/
def addFeature (n : NsFeats F) (i : U32) (v : F) : NsFeats F :=
  { n with idx := n.idx.push i, vals := n.vals.push v }

/-- `add_features` (`sparse_namespaced_features.rs:143-147`). -/
def addFeatures (n : NsFeats F) (is : List U32) (vs : List F) : M (NsFeats F) :=
  if is.length = vs.length then .ok { n with idx := n.idx.extend is, vals := n.vals.extend vs }
  else .error .assert

/-- `add_features_with_iter` (`sparse_namespaced_features.rs:149-157`). -/
def addFeaturesWithIter (n : NsFeats F) (is : List U32) (vs : List F) : M (NsFeats F) :=
  let n' := { n with idx := n.idx.extend is, vals := n.vals.extend vs }
  if n'.idx.data.length = n'.vals.data.length then .ok n' else .error .assert

/-- `clear` (`sparse_namespaced_features.rs:159-162`). -/
def clear (n : NsFeats F) : NsFeats F := { n with idx := n.idx.clear, vals := n.vals.clear }

/-- `AbsDiffEq::abs_diff_eq` (`sparse_namespaced_features.rs:71-87`). -/
def absDiffEq [Flt F] (a b : NsFeats F) (eps : F) : Bool :=
  decide (a.namespace_ = b.namespace_) && decide (a.idx.data = b.idx.data) &&
    (a.vals.data.zip b.vals.data).all (fun p => Flt.absDiffEq p.1 p.2 eps)

end NsFeats

/-- `SparseFeatures` (`sparse_namespaced_features.rs:202-205`). The `BTreeMap` is an association list kept in key order
by `SparseFeatures.insert`; iteration order is the list order. -/
structure SparseFeatures (F : Type) where
  entries : List (Namespace × NsFeats F)
  deriving DecidableEq, Repr

namespace SparseFeatures
variable {F : Type}

/-- `BTreeMap::get`. -/
def lookup : List (Namespace × NsFeats F) → Namespace → Option (NsFeats F)
  | [], _ => none
  | (k, v) :: t, ns => if k = ns then some v else lookup t ns

/-- `BTreeMap::insert`: replaces the value of an existing key, otherwise inserts in key order. -/
def insert : List (Namespace × NsFeats F) → Namespace → NsFeats F → List (Namespace × NsFeats F)
  | [], ns, n => [(ns, n)]
  | (k, v) :: t, ns, n =>
    if k = ns then (ns, n) :: t
    else if ns.rank < k.rank then (ns, n) :: (k, v) :: t
    else (k, v) :: insert t ns n

/-- `BTreeMap::remove`. -/
def erase : List (Namespace × NsFeats F) → Namespace → List (Namespace × NsFeats F)
  | [], _ => []
  | (k, v) :: t, ns => if k = ns then t else (k, v) :: erase t ns

/-- `new` / `Default` (`sparse_namespaced_features.rs:207-211, 327-331`). -/
def new : SparseFeatures F := ⟨[]⟩

/-- `get_namespace` (`sparse_namespaced_features.rs:333-337`): only active namespaces. -/
def getNamespace (f : SparseFeatures F) (ns : Namespace) : Option (NsFeats F) :=
  match lookup f.entries ns with
  | some n => if n.active then some n else none
  | none => none

/-- `all_features` collected (`sparse_namespaced_features.rs:321-325`): does not look at `active`. -/
def allFeatures (f : SparseFeatures F) : List (U32 × F) := f.entries.flatMap (fun e => e.2.iter)

/-- `namespaces` collected (`sparse_namespaced_features.rs:12-36, 272-276`): includes inactive ones. -/
def namespaces (f : SparseFeatures F) : List (Namespace × List (U32 × F)) :=
  f.entries.map (fun e => (e.1, e.2.iter))

/-- `remove_namespace` (`sparse_namespaced_features.rs:348-350`). -/
def removeNamespace (f : SparseFeatures F) (ns : Namespace) : Option (NsFeats F) × SparseFeatures F :=
  (lookup f.entries ns, ⟨erase f.entries ns⟩)

/-- `clear` (`sparse_namespaced_features.rs:352-357`): keeps the keys. -/
def clear (f : SparseFeatures F) : SparseFeatures F :=
  ⟨f.entries.map (fun e => (e.1, { e.2.clear with active := false }))⟩

/-- `set_namespace` (`sparse_namespaced_features.rs:366-372`). -/
def setNamespace (f : SparseFeatures F) (ns : Namespace) (n : NsFeats F) : SparseFeatures F :=
  ⟨insert f.entries ns n⟩

/-- The namespace returned by `get_or_create_namespace` (`sparse_namespaced_features.rs:374-384`). The Rust function
returns a mutable reference; the caller's changes are written back with `setNamespace`. -/
def getOrCreate (f : SparseFeatures F) (ns : Namespace) : NsFeats F :=
  match lookup f.entries ns with
  | some n => { n with active := true }
  | none => { NsFeats.new ns with active := true }

/-- The namespace returned by `get_or_create_namespace_with_capacity` (`sparse_namespaced_features.rs:386-399`). -/
def getOrCreateWithCapacity (f : SparseFeatures F) (ns : Namespace) (cap : Nat) : NsFeats F :=
  match lookup f.entries ns with
  | some n => { n with active := true }
  | none => { NsFeats.newWithCapacity ns cap with active := true }

/-- `get_or_create_namespace(ns)` followed by an update of the returned reference. -/
def modifyOrCreate (f : SparseFeatures F) (ns : Namespace) (g : NsFeats F → NsFeats F) : SparseFeatures F :=
  f.setNamespace ns (g (f.getOrCreate ns))

/-- One iteration of the loop of `append` (`sparse_namespaced_features.rs:402-407`). -/
def appendStep (f : SparseFeatures F) (e : Namespace × NsFeats F) : M (SparseFeatures F) :=
  if e.2.active then do
    let c ← (f.getOrCreateWithCapacity e.1 e.2.size).addFeatures e.2.idx.data e.2.vals.data
    .ok (f.setNamespace e.1 c)
  else .ok f

/-- `append` (`sparse_namespaced_features.rs:401-408`). -/
def append (f other : SparseFeatures F) : M (SparseFeatures F) :=
  other.entries.foldlM appendStep f

/-- One iteration of the loop of `remove` (`sparse_namespaced_features.rs:413-424`). `size - feats.size()` underflows
(panic) when the container is smaller. -/
def removeStep (f : SparseFeatures F) (e : Namespace × NsFeats F) : M (SparseFeatures F) :=
  if e.2.active then
    let c := f.getOrCreate e.1
    let size := c.size
    if size < e.2.size then .error .overflow
    else
      let c := { c with idx := c.idx.truncate (size - e.2.size), vals := c.vals.truncate (size - e.2.size) }
      let c := if c.size = 0 then { c with active := false } else c
      .ok (f.setNamespace e.1 c)
  else .ok f

/-- `remove` (`sparse_namespaced_features.rs:412-426`). -/
def remove (f other : SparseFeatures F) : M (SparseFeatures F) :=
  other.entries.foldlM removeStep f

/-- `empty` (`sparse_namespaced_features.rs:428-430`). -/
def isEmpty (f : SparseFeatures F) : Bool := f.entries.isEmpty || f.entries.all (fun e => !e.2.active)

/-- The set of active namespaces, in key order (`sparse_namespaced_features.rs:221-233`). -/
def activeKeys (f : SparseFeatures F) : List Namespace :=
  (f.entries.filter (fun e => e.2.active)).map (·.1)

/-- `AbsDiffEq::abs_diff_eq` (`sparse_namespaced_features.rs:213-248`). -/
def absDiffEq [Flt F] (a b : SparseFeatures F) (eps : F) : Bool :=
  decide (a.activeKeys = b.activeKeys) &&
    a.activeKeys.all (fun ns =>
      match lookup a.entries ns, lookup b.entries ns with
      | some x, some y => x.absDiffEq y eps
      | _, _ => false)

/-- `quadratic_features` collected (`sparse_namespaced_features.rs:278-296`). -/
def quadraticFeatures [Flt F] (f : SparseFeatures F) (ns1 ns2 : Namespace) (numBits : Nat) : Option (List (U32 × F)) :=
  match f.getNamespace ns1, f.getNamespace ns2 with
  | some n1, some n2 =>
    some (n1.iter.flatMap fun a => n2.iter.map fun b => (maskIdx numBits (quadraticHash a.1 b.1), Flt.mul a.2 b.2))
  | _, _ => none

/-- `cubic_features` collected (`sparse_namespaced_features.rs:298-319`). -/
def cubicFeatures [Flt F] (f : SparseFeatures F) (ns1 ns2 ns3 : Namespace) (numBits : Nat) :
    Option (List (U32 × F)) :=
  match f.getNamespace ns1, f.getNamespace ns2, f.getNamespace ns3 with
  | some n1, some n2, some n3 =>
    some (n1.iter.flatMap fun a => n2.iter.flatMap fun b => n3.iter.map fun c =>
      (maskIdx numBits (cubicHash a.1 b.1 c.1), Flt.mul (Flt.mul a.2 b.2) c.2))
  | _, _, _ => none

end SparseFeatures

/-- `Pool<T>` (`object_pool.rs:3-5`). The mutex makes each operation atomic. -/
structure Pool (α : Type) where
  objects : List α
  deriving Repr

namespace Pool
variable {α : Type}

/-- `get_object` (`object_pool.rs:26-28`): pops the last object or makes a default one. The list is kept with the last
pushed object first. -/
def getObject (dflt : α) (p : Pool α) : α × Pool α :=
  match p.objects with
  | [] => (dflt, p)
  | a :: t => (a, ⟨t⟩)

/-- `return_object` (`object_pool.rs:31-33`). -/
def returnObject (p : Pool α) (a : α) : Pool α := ⟨a :: p.objects⟩

end Pool

/-- `PoolReturnable for SparseFeatures` (`sparse_namespaced_features.rs:433-438`). -/
def SparseFeatures.clearAndReturn {F : Type} (f : SparseFeatures F) (p : Pool (SparseFeatures F)) :
    Pool (SparseFeatures F) :=
  p.returnObject f.clear

end Rml
