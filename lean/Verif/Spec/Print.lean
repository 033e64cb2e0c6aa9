import Verif.Spec.XmlDoc

/-!
# Element trees that can be written and read again (specification)
-/

namespace Tinyfk

/-- a text (the bytes of a Python `str`) without NUL and without the three characters "&#x" in a row -/
def Clean (s : String) : Prop := ∃ w, s.toList = utf8 w ∧ '\x00' ∉ w ∧ ¬ ['&', '#', 'x'] <:+: s.toList

mutual

/-- names are names, the attributes of an element have different names, values are clean -/
def Printable : Elem → Prop
  | .mk n as kids => XName n.toList ∧ (as.map Prod.fst).Nodup ∧ (∀ a ∈ as, XName a.1.toList ∧ Clean a.2) ∧ AllPrintable kids

/-- all of them -/
def AllPrintable : List Elem → Prop
  | [] => True
  | e :: es => Printable e ∧ AllPrintable es

end

mutual

/-- every attribute value in the tree is such -/
def Values (P : String → Prop) : Elem → Prop
  | .mk _ as kids => (∀ a ∈ as, P a.2) ∧ AllValues P kids

/-- in all of them -/
def AllValues (P : String → Prop) : List Elem → Prop
  | [] => True
  | e :: es => Values P e ∧ AllValues P es

end

variable {K : Type}

/-- the texts of a material -/
structure MaterialStrings (P : String → Prop) (m : Material K) : Prop where
  name : P m.name
  texture : P m.texture

/-- the texts of a shape -/
def GeometryStrings (P : String → Prop) : Geometry K → Prop
  | .mesh f _ => P f
  | _ => True

/-- the texts of a link -/
structure LinkStrings (P : String → Prop) (l : XLink K) : Prop where
  name : P l.name
  visuals : ∀ v ∈ l.visuals, GeometryStrings P v.geometry ∧ ∀ m, v.material = some m → MaterialStrings P m
  collisions : ∀ c ∈ l.collisions, GeometryStrings P c.geometry

/-- the texts of a joint -/
structure JointStrings (P : String → Prop) (j : XJoint K) : Prop where
  name : P j.name
  parent : P j.parentLinkName
  child : P j.childLinkName
  mimic : ∀ m, j.mimic = some m → P m.jointName

/-- the texts of a robot that are written by `exportURDF` -/
structure RobotStrings (P : String → Prop) (r : Robot K) : Prop where
  name : P r.name
  materials : ∀ m ∈ r.materials, MaterialStrings P m
  links : ∀ l ∈ r.links, LinkStrings P l
  joints : ∀ j ∈ r.joints, JointStrings P j

/-- The texts of numbers consist of letters, digits, signs and dots. -/
def NumberText (fmt : K → String) : Prop := ∀ x, ∀ c ∈ (fmt x).toList, c.isAlphanum = true ∨ c = '+' ∨ c = '-' ∨ c = '.'

end Tinyfk
