import Verif.Lemmas.Nodes
import Verif.Spec.Stl

/-! # The types mentioned by the libraries `Std` and `StrictTypes` -/

namespace Verif.Stl

/-- Types of which `Ty` is made, except for those depending on the reference. -/
def commonNodes : List RTy := [payload [primitive], primitive, u8, payload [], payload [enumVariants], enumVariants,
  variantSet, variant, variantName, identString alphaSmallLodash, u16, sizing, u64, fieldName]

/-- The types depending on the reference. -/
def genericNodes (g : Generic) (r : RTy) : List RTy := [ty g r, payload [unionVariants g r], unionVariants g r,
  unionMap g r, variantInfo g r, payload [unnamedFields g r], unnamedFields g r, unnamedList r,
  payload [namedFields g r], namedFields g r, namedList g r, field g r, payload [r, u16], payload [r, sizing],
  payload [r, r, sizing]]

/-- Types which are not made by a generic one. -/
def plainNodes : List RTy := [identTy, identString alphaLodash, typeName, identString alphaCapsLodash, libName,
  symbolRef, typeLibId, bytes32, .prim Ty.BYTE_CODE, semId, payload [semId], payload [externRef], externRef, inlineRef2,
  payload [tyInlineRef2], inlineRef1, payload [tyInlineRef1], inlineRef, payload [tyInlineRef], libRef,
  dependency, depSet, externNames, externTypes, typeMap, typeLib, typeSysId, typeFqn, payload [typeFqn], optFqn,
  typeSymbol, libSet, symbolSet, symbols, systemMap, typeSystem, symbolicSys,
  payload [u8], payload [u8, fieldName], payload [u8, variantName], itemCase, payload [itemCase], option itemCase,
  payload [optFqn], payload [optFqn, optFqn, sizing], nestedCase, nestedList, u32, typeInfo, infoList, memoryLayout]

/-- All types. -/
def nodes : List RTy := stdTypes ++ commonNodes ++ plainNodes ++ genericNodes gInlineRef2 inlineRef2 ++
  genericNodes gInlineRef1 inlineRef1 ++ genericNodes gInlineRef inlineRef ++ genericNodes gLibRef libRef ++
  genericNodes gSemId semId

/-! ### Parts -/

theorem ty_parts (g : Generic) (r : RTy) : (ty g r).parts = [payload [primitive], payload [], payload [enumVariants], payload [unionVariants g r],
    payload [unnamedFields g r], payload [namedFields g r], payload [r, u16], payload [r, sizing], payload [r, sizing],
    payload [r, r, sizing]] := rfl
theorem unionVariants_parts (g : Generic) (r : RTy) : (unionVariants g r).parts = [unionMap g r] := rfl
theorem unionMap_parts (g : Generic) (r : RTy) : (unionMap g r).parts = [u8, variantInfo g r] := rfl
theorem variantInfo_parts (g : Generic) (r : RTy) : (variantInfo g r).parts = [variantName, r] := rfl
theorem unnamedFields_parts (g : Generic) (r : RTy) : (unnamedFields g r).parts = [unnamedList r] := rfl
theorem unnamedList_parts (r : RTy) : (unnamedList r).parts = [r] := rfl
theorem namedFields_parts (g : Generic) (r : RTy) : (namedFields g r).parts = [namedList g r] := rfl
theorem namedList_parts (g : Generic) (r : RTy) : (namedList g r).parts = [field g r] := rfl
theorem field_parts (g : Generic) (r : RTy) : (field g r).parts = [fieldName, r] := rfl
theorem payload1_parts (a : RTy) : (payload [a]).parts = [a] := rfl
theorem payload2_parts (a b : RTy) : (payload [a, b]).parts = [a, b] := rfl
theorem payload3_parts (a b c : RTy) : (payload [a, b, c]).parts = [a, b, c] := rfl
theorem payload0_parts : (payload []).parts = [] := rfl
theorem option_parts (a : RTy) : (option a).parts = [payload [], payload [a]] := rfl
theorem reference_parts (n : Name) (a : RTy) : (reference n a).parts = [payload [a], payload [semId], payload [externRef]] := rfl
theorem identString_parts (a : RTy) : (identString a).parts = [a, alphaNumLodash] := rfl
theorem primitive_parts : primitive.parts = [u8] := rfl
theorem u8_parts : u8.parts = [] := rfl
theorem u16_parts : u16.parts = [] := rfl
theorem u32_parts : u32.parts = [] := rfl
theorem u64_parts : u64.parts = [] := rfl
theorem enumVariants_parts : enumVariants.parts = [variantSet] := rfl
theorem variantSet_parts : variantSet.parts = [variant] := rfl
theorem variant_parts : variant.parts = [variantName, u8] := rfl
theorem variantName_parts : variantName.parts = [identString alphaSmallLodash] := rfl
theorem fieldName_parts : fieldName.parts = [identString alphaSmallLodash] := rfl
theorem sizing_parts : sizing.parts = [u64, u64] := rfl
theorem identTy_parts : identTy.parts = [identString alphaLodash] := rfl
theorem typeName_parts : typeName.parts = [identString alphaCapsLodash] := rfl
theorem libName_parts : libName.parts = [identString alphaCapsLodash] := rfl
theorem symbolRef_parts : symbolRef.parts = [libName, typeName, typeLibId, semId] := rfl
theorem typeLibId_parts : typeLibId.parts = [bytes32] := rfl
theorem semId_parts : semId.parts = [bytes32] := rfl
theorem typeSysId_parts : typeSysId.parts = [bytes32] := rfl
theorem bytes32_parts : bytes32.parts = [.prim Ty.BYTE_CODE] := rfl
theorem externRef_parts : externRef.parts = [typeLibId, semId] := rfl
theorem inlineRef2_parts : inlineRef2.parts = [payload [semId], payload [externRef]] := rfl
theorem inlineRef1_parts : inlineRef1.parts = [payload [tyInlineRef2], payload [semId], payload [externRef]] := rfl
theorem inlineRef_parts : inlineRef.parts = [payload [tyInlineRef1], payload [semId], payload [externRef]] := rfl
theorem libRef_parts : libRef.parts = [payload [tyInlineRef], payload [semId], payload [externRef]] := rfl
theorem dependency_parts : dependency.parts = [typeLibId, libName] := rfl
theorem depSet_parts : depSet.parts = [dependency] := rfl
theorem externNames_parts : externNames.parts = [semId, typeName] := rfl
theorem externTypes_parts : externTypes.parts = [libName, externNames] := rfl
theorem typeMap_parts : typeMap.parts = [typeName, tyLibRef] := rfl
theorem typeLib_parts : typeLib.parts = [libName, depSet, externTypes, typeMap] := rfl
theorem typeFqn_parts : typeFqn.parts = [libName, typeName] := rfl
theorem optFqn_parts : optFqn.parts = [payload [], payload [typeFqn]] := rfl
theorem typeSymbol_parts : typeSymbol.parts = [semId, optFqn] := rfl
theorem libSet_parts : libSet.parts = [dependency] := rfl
theorem symbolSet_parts : symbolSet.parts = [typeSymbol] := rfl
theorem symbols_parts : symbols.parts = [libSet, symbolSet] := rfl
theorem systemMap_parts : systemMap.parts = [semId, tySemId] := rfl
theorem typeSystem_parts : typeSystem.parts = [systemMap] := rfl
theorem symbolicSys_parts : symbolicSys.parts = [symbols, typeSystem] := rfl
theorem itemCase_parts : itemCase.parts = [payload [u8], payload [u8, fieldName], payload [u8, variantName], payload [], payload [], payload [],
    payload [], payload []] := rfl
theorem nestedCase_parts : nestedCase.parts = [payload [optFqn], payload [], payload [], payload [optFqn], payload [],
    payload [optFqn, optFqn, sizing]] := rfl
theorem nestedList_parts : nestedList.parts = [nestedCase] := rfl
theorem typeInfo_parts : typeInfo.parts = [u32, tySemId, optFqn, option itemCase, nestedList] := rfl
theorem infoList_parts : infoList.parts = [typeInfo] := rfl
theorem memoryLayout_parts : memoryLayout.parts = [infoList] := rfl

theorem prim_parts (c : Byte) : (RTy.prim c).parts = [] := rfl

theorem std_parts : ∀ q ∈ stdTypes, q.parts = [] := by decide

/-! ### The list is closed -/

/-- The parts of the types below. -/
macro "parts" : tactic => `(tactic| simp only [ty_parts, unionVariants_parts, unionMap_parts, variantInfo_parts, unnamedFields_parts, unnamedList_parts,
    namedFields_parts, namedList_parts, field_parts, payload1_parts, payload2_parts, payload3_parts,
    payload0_parts, option_parts, reference_parts, identString_parts, primitive_parts, u8_parts, u16_parts,
    u32_parts, u64_parts, enumVariants_parts, variantSet_parts, variant_parts, variantName_parts, fieldName_parts,
    sizing_parts, identTy_parts, typeName_parts, libName_parts, symbolRef_parts, typeLibId_parts, semId_parts,
    typeSysId_parts, bytes32_parts, externRef_parts, inlineRef2_parts, inlineRef1_parts, inlineRef_parts,
    libRef_parts, dependency_parts, depSet_parts, externNames_parts, externTypes_parts, typeMap_parts,
    typeLib_parts, typeFqn_parts, optFqn_parts, typeSymbol_parts, libSet_parts, symbolSet_parts, symbols_parts,
    systemMap_parts, typeSystem_parts, symbolicSys_parts, itemCase_parts, nestedCase_parts, nestedList_parts,
    typeInfo_parts, infoList_parts, memoryLayout_parts,
    prim_parts, List.forall_mem_cons, List.mem_nil_iff, List.not_mem_nil, false_imp_iff, implies_true, and_true,
    true_and, List.forall_mem_nil])

theorem common_closed : ∀ q ∈ commonNodes, ∀ p ∈ q.parts, p ∈ stdTypes ∨ p ∈ commonNodes := by
  have h1 : alphaSmallLodash ∈ stdTypes := by simp only [stdTypes, List.mem_cons, true_or, or_true]
  have h2 : alphaNumLodash ∈ stdTypes := by simp only [stdTypes, List.mem_cons, true_or, or_true]
  generalize hc : commonNodes = cn
  have hm : ∀ p, p ∈ cn ↔ p ∈ commonNodes := by simp [hc]
  simp only [commonNodes, List.mem_cons, List.not_mem_nil, or_false] at hm
  simp only [hm]
  intro q hq
  rcases hq with rfl | rfl | rfl | rfl | rfl | rfl | rfl | rfl | rfl | rfl | rfl | rfl | rfl | rfl
  all_goals parts
  all_goals simp [h1, h2]

theorem mem_commonNodes {p : RTy} (h : p ∈ commonNodes) : p ∈ nodes := by
  simp only [nodes, List.mem_append]; simp [h]
theorem mem_plainNodes {p : RTy} (h : p ∈ plainNodes) : p ∈ nodes := by
  simp only [nodes, List.mem_append]; simp [h]
theorem mem_stdTypes {p : RTy} (h : p ∈ stdTypes) : p ∈ nodes := by
  simp only [nodes, List.mem_append]; simp [h]

theorem generic_closed (g : Generic) (r : RTy) :
    ∀ q ∈ genericNodes g r, ∀ p ∈ q.parts, p ∈ genericNodes g r ∨ p ∈ commonNodes ∨ p = r := by
  generalize hc : commonNodes = cn
  generalize hg : genericNodes g r = gn
  have hm : ∀ p, p ∈ cn ↔ p ∈ commonNodes := by simp [hc]
  have hn : ∀ p, p ∈ gn ↔ p ∈ genericNodes g r := by simp [hg]
  simp only [commonNodes, List.mem_cons, List.not_mem_nil, or_false] at hm
  simp only [genericNodes, List.mem_cons, List.not_mem_nil, or_false] at hn
  simp only [hm, hn]
  intro q hq
  rcases hq with rfl | rfl | rfl | rfl | rfl | rfl | rfl | rfl | rfl | rfl | rfl | rfl | rfl | rfl | rfl
  all_goals parts
  all_goals simp

theorem plain_closed : ∀ q ∈ plainNodes, ∀ p ∈ q.parts, p ∈ nodes := by
  have h1 : alphaLodash ∈ nodes := mem_stdTypes (by simp only [stdTypes, List.mem_cons, true_or, or_true])
  have h2 : alphaNumLodash ∈ nodes := mem_stdTypes (by simp only [stdTypes, List.mem_cons, true_or, or_true])
  have h3 : alphaCapsLodash ∈ nodes := mem_stdTypes (by simp only [stdTypes, List.mem_cons, true_or, or_true])
  have hp : ∀ p, p ∈ plainNodes → p ∈ nodes := fun p => mem_plainNodes
  have hm : ∀ p, p ∈ commonNodes → p ∈ nodes := fun p => mem_commonNodes
  have g1 : tyInlineRef2 ∈ nodes ∧ tyInlineRef1 ∈ nodes ∧ tyInlineRef ∈ nodes ∧ tyLibRef ∈ nodes ∧ tySemId ∈ nodes := by
    simp only [nodes, genericNodes, List.mem_append, List.mem_cons, tyInlineRef2, tyInlineRef1, tyInlineRef, tyLibRef,
      tySemId, true_or, or_true, and_self]
  obtain ⟨g1, g2, g3, g4, g5⟩ := g1
  generalize nodes = ns at h1 h2 h3 hp hm g1 g2 g3 g4 g5 ⊢
  simp only [commonNodes, List.forall_mem_cons] at hm
  have hp' := hp
  simp only [plainNodes, List.forall_mem_cons] at hp
  simp only [plainNodes, List.forall_mem_cons]
  parts
  simp [hm, hp, h1, h2, h3, g1, g2, g3, g4, g5]

theorem nodes_closed : ClosedNodes nodes := by
  intro q hq p hp
  have gen : ∀ g r, r ∈ nodes → (∀ p ∈ genericNodes g r, p ∈ nodes) → q ∈ genericNodes g r → p ∈ nodes := by
    intro g r hr hn h
    rcases generic_closed g r q h p hp with h | h | rfl
    · exact hn p h
    · exact mem_commonNodes h
    · exact hr
  have hr : inlineRef2 ∈ nodes ∧ inlineRef1 ∈ nodes ∧ inlineRef ∈ nodes ∧ libRef ∈ nodes ∧ semId ∈ nodes := by
    simp only [nodes, plainNodes, List.mem_append, List.mem_cons, true_or, or_true, and_self]
  obtain ⟨r1, r2, r3, r4, r5⟩ := hr
  unfold nodes at hq
  simp only [List.mem_append] at hq
  rcases hq with ((((((hq | hq) | hq) | hq) | hq) | hq) | hq) | hq
  · rw [std_parts q hq] at hp; cases hp
  · exact (common_closed q hq p hp).elim mem_stdTypes mem_commonNodes
  · exact plain_closed q hq p hp
  · exact gen _ _ r1 (fun p h => by simp only [nodes, List.mem_append]; simp [h]) hq
  · exact gen _ _ r2 (fun p h => by simp only [nodes, List.mem_append]; simp [h]) hq
  · exact gen _ _ r3 (fun p h => by simp only [nodes, List.mem_append]; simp [h]) hq
  · exact gen _ _ r4 (fun p h => by simp only [nodes, List.mem_append]; simp [h]) hq
  · exact gen _ _ r5 (fun p h => by simp only [nodes, List.mem_append]; simp [h]) hq

theorem crates_nodes : ∀ c ∈ crates, ∀ t ∈ c.types, t ∈ nodes := by
  simp only [crates, List.forall_mem_cons, List.not_mem_nil, false_imp_iff, implies_true, and_true]
  refine ⟨fun t => mem_stdTypes, ?_⟩
  have hp : ∀ p, p ∈ plainNodes → p ∈ nodes := fun p => mem_plainNodes
  have hm : ∀ p, p ∈ commonNodes → p ∈ nodes := fun p => mem_commonNodes
  simp only [commonNodes, plainNodes, List.forall_mem_cons] at hm hp
  simp [strictTypesCrate, hm, hp]

end Verif.Stl
