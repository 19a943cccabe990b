import Verif.Props.DeriveGdef

/-! # C109: item variation stores are written and read as their declarations say -/

namespace FT.Props
open FT FT.Off FT.Der FT.Lay

/-- The code behind the names in the declarations of itemvariationstore.rs (Model/Declarations). -/
def storeLeaf (n : String) : Leaf :=
  match n with
  | "VariationRegionList" => ownLeaf ItemVar.encRegionList ItemVar.readRegionList
  | "ItemVariationData" => ownLeaf (fun d => .ok (ItemVar.encData d)) ItemVar.readData
  | _ => ownLeaf (fun x => .ok (encU16 x)) readU16

/-- `ItemVariationStoreInternal` as made when a store is written (itemvariationstore.rs:152-171). -/
def storeV (s : ItemVar.Store) : (Declared.itemVariationStoreInternal storeLeaf).den :=
  ((1 : UInt16), Link.to (⟨s.axisCount, UInt16.ofNat s.regions.length, s.regions⟩ : ItemVar.RegionList),
    s.data.map (fun d : ItemVar.Data => Link.to d), ())

theorem sz (n : String) : Sized (storeLeaf n) := by
  unfold storeLeaf
  split <;> exact ownLeaf_sized _ _

/-- A store is written as declared; if the region list cannot be written, finding its size panics. -/
theorem C109_store (s : ItemVar.Store) :
    ItemVar.encStore s = match ItemVar.encRegionList ⟨s.axisCount, UInt16.ofNat s.regions.length, s.regions⟩ with
      | .ok _ => Der.toBytes (.record false (Declared.itemVariationStoreInternal storeLeaf)) (storeV s)
      | _ => .panic := by
  unfold ItemVar.encStore
  cases hrb : ItemVar.encRegionList ⟨s.axisCount, UInt16.ofNat s.regions.length, s.regions⟩ with
  | err => rfl
  | panic => rfl
  | ok rb =>
    show Off.toBytes (ItemVar.storeTab rb s.data) = Der.toBytes (.record false (Declared.itemVariationStoreInternal storeLeaf)) (storeV s)
    symm
    have hd : ∀ l : List ItemVar.Data, Res.mapL (fun d : ItemVar.Data => Res.ok (Tab.link .w32 true false none (.bytes (ItemVar.encData d)) .nil)) l =
        .ok (l.map fun d => Tab.link .w32 true false none (.bytes (ItemVar.encData d)) .nil) := by
      intro l
      induction l with
      | nil => rfl
      | cons a l ih => simp only [Res.mapL, ih, List.map_cons]
    obtain ⟨Us, u1, u2⟩ := repr_list (g := fun d : ItemVar.Data => Link.to d)
      (R := IsLink .w32 true (IsTab false (.leaf (storeLeaf "ItemVariationData")))) s.data _ (fun a T _ hT => by
        cases hT
        exact ⟨_, ⟨.bytes (ItemVar.encData a), ⟨_, rfl, rfl⟩, rfl⟩, rfl⟩) (hd s.data)
    have h2 : Repr true (.offs .w16 .w32 (.leaf (storeLeaf "ItemVariationData"))) (s.data.map fun d : ItemVar.Data => Link.to d)
        ((Tab.bytes (encU16 (UInt16.ofNat s.data.length))).append
          (Tab.concat (s.data.map fun d => Tab.link .w32 true false none (.bytes (ItemVar.encData d)) .nil))) := by
      refine ⟨_, ⟨Us, u1, rfl⟩, ?_⟩
      rw [merge_append, merge_append, u2, List.length_map]
      rfl
    have h1 : Repr false (.off .w32 (.leaf (storeLeaf "VariationRegionList")))
        (Link.to (⟨s.axisCount, UInt16.ofNat s.regions.length, s.regions⟩ : ItemVar.RegionList)) (.link .w32 false false none (.bytes rb) .nil) :=
      ⟨_, ⟨.bytes rb, ⟨rb, hrb, rfl⟩, rfl⟩, rfl⟩
    refine repr_toBytes (Q := fun _ => True) ⟨sz _, ⟨trivial, sz _⟩, ⟨trivial, sz _⟩, trivial⟩ (by decide) (by decide)
      (repr_cons (repr_leaf rfl) (repr_cons h1 (repr_last h2)))

/-- The data of a store begins with the declared header, with as many short deltas as regions (itemvariationstore.rs:62-70). -/
theorem C109_store_data (d : ItemVar.Data) : ∃ header,
    Der.toBytes (.record false (Declared.itemVariationDataHeader storeLeaf))
      ((UInt16.ofNat d.deltas.length, UInt16.ofNat d.regions.length, d.regions, ()) : UInt16 × UInt16 × List UInt16 × Unit) = .ok header ∧
    ItemVar.encData d = header ++ encVec (ItemVar.encRow d.regions.length 0) d.deltas := by
  have h1 := repr_encCounted (vec := true) (t := .leaf (storeLeaf "uint16")) (enc := encU16) (g := fun x : UInt16 => x)
    (fun a => repr_leaf rfl) d.regions
  have h2 := (congrArg (fun m : List UInt16 => Repr true (.counted .w16 (.leaf (storeLeaf "uint16"))) m (.bytes (encCounted encU16 d.regions)))
    (List.map_id' d.regions)).mp h1
  refine ⟨encU16 (UInt16.ofNat d.deltas.length) ++ (encU16 (UInt16.ofNat d.regions.length) ++ encCounted encU16 d.regions), ?_, ?_⟩
  · rw [← toBytes_bytes]
    refine repr_toBytes (fs := Declared.itemVariationDataHeader storeLeaf) (Q := fun _ => True) ⟨sz _, sz _, sz _, trivial⟩ (by decide) (by decide)
      (repr_merge (repr_cons (repr_leaf rfl) (repr_cons (repr_leaf rfl) (repr_last h2))) ?_)
    simp [Tab.bytes, Tab.append, mergeRaw, joinRaw]
  · simp only [ItemVar.encData, List.append_assoc]

/-- What reading an `ItemVariationStoreInternal` gives, offsets followed. -/
structure StoreLow where
  format : UInt16
  regions : Option ItemVar.RegionList
  data : List (Option ItemVar.Data)

def storeLowV (s : StoreLow) : (Declared.itemVariationStoreInternal storeLeaf).den :=
  (s.format, linkV s.regions, s.data.map (linkOf fun d : ItemVar.Data => d), ())

/-- `From` of what was read (itemvariationstore.rs:134-150): null offsets panic. -/
def storeOf (s : StoreLow) : Res ItemVar.Store := do
  let rl ← Res.unwrap s.regions
  let data ← Res.mapL Res.unwrap s.data
  return { format := s.format, axisCount := rl.axisCount, regions := rl.regions, data }

theorem lift_bind {α β : Type} (x : Res α) (f : α → Res β) : (Reader.lift (x >>= f)) = Reader.lift x >>= fun a => Reader.lift (f a) := by
  funext s
  rw [Reader.bind_run]
  cases x <;> rfl

/-- A store is read as declared, then taken out of its offsets. -/
theorem C109_reads_store : ∃ low : Reader StoreLow,
    ItemVar.readStore = (do Reader.lift (storeOf (← low))) ∧
    Alike (fun a v => SameF (Declared.itemVariationStoreInternal storeLeaf) (storeLowV a) v) low
      (read (.record false (Declared.itemVariationStoreInternal storeLeaf))) := by
  refine ⟨readU16 >>= fun format => readOffset .w32 ItemVar.readRegionList >>= fun rl =>
    readCounted (readOffset .w32 ItemVar.readData) >>= fun data => pure ⟨format, rl, data⟩, ?_, ?_⟩
  · simp only [bind_assoc_reader, pure_bind_reader, storeOf, lift_bind]
    rfl
  · exact alike_record rfl (alike_cons (t := .leaf (storeLeaf "uint16")) (R := fun a v => Same (.leaf (storeLeaf "uint16")) a v) (alike_self _) fun _ _ h1 =>
      alike_cons (alike_link (t := .leaf (storeLeaf "VariationRegionList")) (g := fun x : ItemVar.RegionList => x) (alike_self _)) fun _ _ h2 =>
      alike_cons (DMore.toffs32 (t := .leaf (storeLeaf "ItemVariationData")) (g := fun d : ItemVar.Data => d) (alike_self _)) fun _ _ h3 =>
      alike_nil ⟨h1, h2, h3, trivial⟩)

/-- A store with one region of one axis and one row of one delta. -/
example : ItemVar.encStore ⟨1, 1, [[⟨0, 1, 1⟩]], [⟨[0], [[-3]]⟩]⟩ =
      .ok [0, 1, 0, 0, 0, 12, 0, 1, 0, 0, 0, 22, 0, 1, 0, 1, 0, 0, 64, 0, 64, 0, 0, 1, 0, 1, 0, 1, 0, 0, 255, 253] := by
  decide +kernel

end FT.Props
