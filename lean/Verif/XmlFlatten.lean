import Verif.Csv

/-! # Model of the XML part of `utils/csv_utils.hpp`

The column map of a feature is made by writing the feature with `cereal::XMLOutputArchive`, parsing the text with rapidxml
and flattening the tree.  The tree is the input here: the archive and the parser are not modelled. -/

namespace Albatross

/-- `rapidxml::xml_node`: whether its type is `node_element`, name, value and children in document order. -/
inductive XmlNode where
  | mk (isElement : Bool) (name value : String) (children : List XmlNode)

/-- `child->type() == rapidxml::node_type::node_element`. -/
def XmlNode.isElement : XmlNode → Bool
  | .mk e _ _ _ => e

mutual

/-- `flatten_xml_serialization` (utils/csv_utils.hpp lines 68-93). -/
def flattenXml (prependParent : Bool) : XmlNode → SMap String String
  | .mk _ name value children =>
    if value.length > 0 then SMap.put [] name value
    else flattenChildren prependParent name children []

/-- The loop over the children (utils/csv_utils.hpp lines 79-90). -/
def flattenChildren (prependParent : Bool) (name : String) : List XmlNode → SMap String String → SMap String String
  | [], output => output
  | child :: rest, output =>
    flattenChildren prependParent name rest
      (if child.isElement then
        (flattenXml true child).foldl (fun output pair =>
          SMap.put output (if prependParent then name ++ "." ++ pair.1 else pair.1) pair.2) output
      else output)

end

/-- `to_map` of a feature (utils/csv_utils.hpp lines 110-120) from the parsed document: the first node of the first node.
`first_node()` of a document without nodes is a null pointer. -/
def toMapXml : List XmlNode → Outcome (SMap String String)
  | .mk _ _ _ (first :: _) :: _ => .ok (flattenXml false first)
  | _ => .error .ub

/-- `to_map` of a `double` (utils/csv_utils.hpp lines 122-126). -/
def toMapDouble (toStr : Dbl → String) (feature : Dbl) : SMap String String := [("feature", toStr feature)]

end Albatross
