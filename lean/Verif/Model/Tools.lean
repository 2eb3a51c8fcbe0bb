import Mathlib.Data.Rat.Defs

/-!
Model of the tool surface for language models: the published definitions, `Call`, the tools of the MCP server, and decoding a
request.

JSON values are as parsed; `num v plain` is a number, `plain` if it is written without fraction and exponent. Numbers are in the
range of `float64`.
-/
namespace Verif.Tools

inductive J where
  | null
  | bool (b : Bool)
  | num (v : Rat) (plain : Bool)
  | str (s : String)
  | arr (xs : List J)
  | obj (kvs : List (String × J))

/-- `toolStringSchema` ... `toolStringArraySchema`, /repo/pkg/cortexdb/graphrag_tools.go:1447-1489. -/
inductive Kind where
  | str
  | int
  | num
  | bool
  | enum (vs : List String)
  | map
  | strs

/-- A property of `toolObjectSchema` (graphrag_tools.go:1439-1445): of a simple kind, or an array of objects with required names and
properties. -/
inductive Schema where
  | leaf (k : Kind)
  | objs (required : List String) (props : List (String × Kind))

/-- `ToolDefinition`, /repo/pkg/cortexdb/graphrag_tools.go:19-23, without the description. -/
structure Def where
  name : String
  required : List String
  props : List (String × Schema)

/-- The Go types of request fields: `string`, `int`, `float64`, `bool`, `map[string]string`, `map[string]any`, `[]string`. A pointer
decodes like what it points to. -/
inductive GoLeaf where
  | str
  | int
  | f64
  | bool
  | smap
  | amap
  | strs

inductive GoTy where
  | leaf (t : GoLeaf)
  | structs (fs : List (String × GoLeaf))

/-- A field of a request: JSON name, type, `omitempty`. -/
structure Field where
  name : String
  ty : GoTy
  omitempty : Bool

/-! ### What a published schema accepts (JSON Schema) -/

def Kind.accepts : Kind → J → Bool
  | .str, .str _ => true
  | .int, .num v _ => v.den = 1
  | .num, .num _ _ => true
  | .bool, .bool _ => true
  | .enum vs, .str s => vs.contains s
  | .map, .obj _ => true
  | .strs, .arr xs => xs.all (fun x => match x with | .str _ => true | _ => false)
  | _, _ => false

/-- Required names are there and every listed property is accepted; other properties are not restricted. -/
def acceptsObj {S : Type} (acc : S → J → Bool) (required : List String) (props : List (String × S)) (kvs : List (String × J)) : Bool :=
  required.all (fun r => kvs.any (fun p => p.1 = r)) &&
    kvs.all (fun p => match props.lookup p.1 with | some s => acc s p.2 | none => true)

def Schema.accepts : Schema → J → Bool
  | .leaf k, v => k.accepts v
  | .objs req props, .arr xs => xs.all (fun x => match x with | .obj kvs => acceptsObj Kind.accepts req props kvs | _ => false)
  | .objs _ _, _ => false

def Def.accepts (d : Def) (kvs : List (String × J)) : Bool := acceptsObj Schema.accepts d.required d.props kvs

/-! ### `json.Unmarshal` into the request -/

/-- Whether a value can be decoded into a simple type; `null` always can. -/
def GoLeaf.fits : GoLeaf → J → Bool
  | _, .null => true
  | .str, .str _ => true
  | .int, .num v plain => plain && v.den = 1 && decide (-2 ^ 63 ≤ v.num) && decide (v.num < 2 ^ 63)
  | .f64, .num _ _ => true
  | .bool, .bool _ => true
  | .smap, .obj kvs => kvs.all (fun p => match p.2 with | .str _ => true | .null => true | _ => false)
  | .amap, .obj _ => true
  | .strs, .arr xs => xs.all (fun x => match x with | .str _ => true | .null => true | _ => false)
  | _, _ => false

/-- The field a key goes to: the field of that name, or one of a name that is equal under case folding (`fold`). -/
def target {T : Type} (fold : String → String) (fields : List (String × T)) (key : String) : Option (String × T) :=
  match fields.find? (fun f => f.1 = key) with
  | some f => some f
  | none => fields.find? (fun f => fold f.1 = fold key)

def decodesObj {T : Type} (fold : String → String) (fits : T → J → Bool) (fields : List (String × T)) (kvs : List (String × J)) : Bool :=
  kvs.all (fun p => match target fold fields p.1 with | some f => fits f.2 p.2 | none => true)

def GoTy.fits (fold : String → String) : GoTy → J → Bool
  | _, .null => true
  | .leaf t, v => t.fits v
  | .structs fs, .arr xs => xs.all (fun x => match x with | .null => true | .obj kvs => decodesObj fold GoLeaf.fits fs kvs | _ => false)
  | .structs _, _ => false

def shape (fields : List Field) : List (String × GoTy) := fields.map (fun f => (f.name, f.ty))

/-- `json.Unmarshal(input, &req)` succeeds, /repo/pkg/cortexdb/graphrag_tools.go:389-391 and the like. -/
def decodes (fold : String → String) (fields : List Field) (kvs : List (String × J)) : Bool := decodesObj fold (GoTy.fits fold) (shape fields) kvs

/-- The value the field `name` receives: the last one given for it; `none`: the zero value. -/
def received (fold : String → String) (fields : List Field) (kvs : List (String × J)) (name : String) : Option J :=
  (kvs.reverse.find? (fun p => ((target fold (shape fields) p.1).map (·.1)) = some name)).map (·.2)

/-! ### The tables -/

/-- `ToolEntityInput`, /repo/pkg/cortexdb/graphrag_tools.go:59-66. -/
def entityInput : List (String × GoLeaf) := [("id", .str), ("name", .str), ("type", .str), ("description", .str), ("chunk_ids", .strs), ("metadata", .smap)]

/-- `ToolRelationInput`, /repo/pkg/cortexdb/graphrag_tools.go:81-88. -/
def relationInput : List (String × GoLeaf) := [("from", .str), ("to", .str), ("type", .str), ("weight", .f64), ("chunk_ids", .strs), ("metadata", .smap)]

/-- /repo/pkg/cortexdb/graphrag_tools.go:237-251 and knowledge_memory_tooldefs.go:162-177. -/
def entityArray : Schema := .objs ["name"] [("id", .str), ("name", .str), ("type", .str), ("description", .str), ("chunk_ids", .strs), ("metadata", .map)]

/-- /repo/pkg/cortexdb/graphrag_tools.go:261-275 and knowledge_memory_tooldefs.go:179-194. -/
def relationArray : Schema := .objs ["from", "to"] [("from", .str), ("to", .str), ("type", .str), ("weight", .num), ("chunk_ids", .strs), ("metadata", .map)]

/-- `ToolIngestDocumentRequest`, /repo/pkg/cortexdb/graphrag_tools.go:41-49. -/
def toolIngestDocumentRequest : List Field :=
  [⟨"document_id", .leaf .str, false⟩,
   ⟨"title", .leaf .str, true⟩,
   ⟨"content", .leaf .str, false⟩,
   ⟨"collection", .leaf .str, true⟩,
   ⟨"chunk_size", .leaf .int, true⟩,
   ⟨"chunk_overlap", .leaf .int, true⟩,
   ⟨"metadata", .leaf .smap, true⟩]

/-- `ToolUpsertEntitiesRequest`, /repo/pkg/cortexdb/graphrag_tools.go:69-72. -/
def toolUpsertEntitiesRequest : List Field :=
  [⟨"document_id", .leaf .str, true⟩,
   ⟨"entities", .structs entityInput, false⟩]

/-- `ToolUpsertRelationsRequest`, /repo/pkg/cortexdb/graphrag_tools.go:91-94. -/
def toolUpsertRelationsRequest : List Field :=
  [⟨"document_id", .leaf .str, true⟩,
   ⟨"relations", .structs relationInput, false⟩]

/-- `ToolSearchTextRequest`, /repo/pkg/cortexdb/graphrag_tools.go:102-111. -/
def toolSearchTextRequest : List Field :=
  [⟨"query", .leaf .str, false⟩,
   ⟨"collection", .leaf .str, true⟩,
   ⟨"top_k", .leaf .int, true⟩,
   ⟨"threshold", .leaf .f64, true⟩,
   ⟨"keywords", .leaf .strs, true⟩,
   ⟨"alternate_queries", .leaf .strs, true⟩,
   ⟨"retrieval_mode", .leaf .str, true⟩,
   ⟨"disable_graph", .leaf .bool, true⟩]

/-- `ToolSearchChunksByEntitiesRequest`, /repo/pkg/cortexdb/graphrag_tools.go:119-123. -/
def toolSearchChunksByEntitiesRequest : List Field :=
  [⟨"entity_names", .leaf .strs, false⟩,
   ⟨"top_k", .leaf .int, true⟩,
   ⟨"max_hops", .leaf .int, true⟩]

/-- `ToolExpandGraphRequest`, /repo/pkg/cortexdb/graphrag_tools.go:131-137. -/
def toolExpandGraphRequest : List Field :=
  [⟨"node_ids", .leaf .strs, false⟩,
   ⟨"max_hops", .leaf .int, true⟩,
   ⟨"edge_types", .leaf .strs, true⟩,
   ⟨"node_types", .leaf .strs, true⟩,
   ⟨"limit", .leaf .int, true⟩]

/-- `ToolGetNodesRequest`, /repo/pkg/cortexdb/graphrag_tools.go:146-148. -/
def toolGetNodesRequest : List Field :=
  [⟨"node_ids", .leaf .strs, false⟩]

/-- `ToolGetChunksRequest`, /repo/pkg/cortexdb/graphrag_tools.go:156-160. -/
def toolGetChunksRequest : List Field :=
  [⟨"chunk_ids", .leaf .strs, false⟩,
   ⟨"retrieval_mode", .leaf .str, true⟩,
   ⟨"disable_graph", .leaf .bool, true⟩]

/-- `ToolBuildContextRequest`, /repo/pkg/cortexdb/graphrag_tools.go:168-175. -/
def toolBuildContextRequest : List Field :=
  [⟨"chunk_ids", .leaf .strs, false⟩,
   ⟨"max_context_chunks", .leaf .int, true⟩,
   ⟨"max_context_chars", .leaf .int, true⟩,
   ⟨"per_document_limit", .leaf .int, true⟩,
   ⟨"retrieval_mode", .leaf .str, true⟩,
   ⟨"disable_graph", .leaf .bool, true⟩]

/-- `ToolSearchGraphRAGLexicalRequest`, /repo/pkg/cortexdb/graphrag_tools.go:184-199. -/
def toolSearchGraphRAGLexicalRequest : List Field :=
  [⟨"query", .leaf .str, false⟩,
   ⟨"collection", .leaf .str, true⟩,
   ⟨"top_k", .leaf .int, true⟩,
   ⟨"max_hops", .leaf .int, true⟩,
   ⟨"max_related_chunks", .leaf .int, true⟩,
   ⟨"max_context_chunks", .leaf .int, true⟩,
   ⟨"max_context_chars", .leaf .int, true⟩,
   ⟨"per_document_limit", .leaf .int, true⟩,
   ⟨"diversity_lambda", .leaf .f64, true⟩,
   ⟨"entity_names", .leaf .strs, true⟩,
   ⟨"keywords", .leaf .strs, true⟩,
   ⟨"alternate_queries", .leaf .strs, true⟩,
   ⟨"retrieval_mode", .leaf .str, true⟩,
   ⟨"disable_graph", .leaf .bool, true⟩]

/-- `KnowledgeSaveRequest`, /repo/pkg/cortexdb/knowledge_memory_types.go:33-45. -/
def knowledgeSaveRequest : List Field :=
  [⟨"knowledge_id", .leaf .str, false⟩,
   ⟨"title", .leaf .str, true⟩,
   ⟨"content", .leaf .str, false⟩,
   ⟨"source_url", .leaf .str, true⟩,
   ⟨"author", .leaf .str, true⟩,
   ⟨"collection", .leaf .str, true⟩,
   ⟨"chunk_size", .leaf .int, true⟩,
   ⟨"chunk_overlap", .leaf .int, true⟩,
   ⟨"metadata", .leaf .smap, true⟩,
   ⟨"entities", .structs entityInput, true⟩,
   ⟨"relations", .structs relationInput, true⟩]

/-- `KnowledgeUpdateRequest`, /repo/pkg/cortexdb/knowledge_memory_types.go:56-68. -/
def knowledgeUpdateRequest : List Field :=
  [⟨"knowledge_id", .leaf .str, false⟩,
   ⟨"title", .leaf .str, true⟩,
   ⟨"content", .leaf .str, true⟩,
   ⟨"source_url", .leaf .str, true⟩,
   ⟨"author", .leaf .str, true⟩,
   ⟨"collection", .leaf .str, true⟩,
   ⟨"chunk_size", .leaf .int, true⟩,
   ⟨"chunk_overlap", .leaf .int, true⟩,
   ⟨"metadata", .leaf .smap, true⟩,
   ⟨"entities", .structs entityInput, true⟩,
   ⟨"relations", .structs relationInput, true⟩]

/-- `KnowledgeGetRequest`, /repo/pkg/cortexdb/knowledge_memory_types.go:71-73. -/
def knowledgeGetRequest : List Field :=
  [⟨"knowledge_id", .leaf .str, false⟩]

/-- `KnowledgeDeleteRequest`, /repo/pkg/cortexdb/knowledge_memory_types.go:81-83. -/
def knowledgeDeleteRequest : List Field :=
  [⟨"knowledge_id", .leaf .str, false⟩]

/-- `KnowledgeSearchRequest`, /repo/pkg/cortexdb/knowledge_memory_types.go:92-107. -/
def knowledgeSearchRequest : List Field :=
  [⟨"query", .leaf .str, false⟩,
   ⟨"collection", .leaf .str, true⟩,
   ⟨"top_k", .leaf .int, true⟩,
   ⟨"max_hops", .leaf .int, true⟩,
   ⟨"max_related_chunks", .leaf .int, true⟩,
   ⟨"max_context_chunks", .leaf .int, true⟩,
   ⟨"max_context_chars", .leaf .int, true⟩,
   ⟨"per_document_limit", .leaf .int, true⟩,
   ⟨"diversity_lambda", .leaf .f64, true⟩,
   ⟨"entity_names", .leaf .strs, true⟩,
   ⟨"keywords", .leaf .strs, true⟩,
   ⟨"alternate_queries", .leaf .strs, true⟩,
   ⟨"retrieval_mode", .leaf .str, true⟩,
   ⟨"disable_graph", .leaf .bool, true⟩]

/-- `MemorySaveRequest`, /repo/pkg/cortexdb/knowledge_memory_types.go:148-159. -/
def memorySaveRequest : List Field :=
  [⟨"memory_id", .leaf .str, false⟩,
   ⟨"user_id", .leaf .str, true⟩,
   ⟨"session_id", .leaf .str, true⟩,
   ⟨"scope", .leaf .str, true⟩,
   ⟨"namespace", .leaf .str, true⟩,
   ⟨"role", .leaf .str, true⟩,
   ⟨"content", .leaf .str, false⟩,
   ⟨"metadata", .leaf .amap, true⟩,
   ⟨"importance", .leaf .f64, true⟩,
   ⟨"ttl_seconds", .leaf .int, true⟩]

/-- `MemoryUpdateRequest`, /repo/pkg/cortexdb/knowledge_memory_types.go:167-173. -/
def memoryUpdateRequest : List Field :=
  [⟨"memory_id", .leaf .str, false⟩,
   ⟨"content", .leaf .str, true⟩,
   ⟨"metadata", .leaf .amap, true⟩,
   ⟨"importance", .leaf .f64, true⟩,
   ⟨"ttl_seconds", .leaf .int, true⟩]

/-- `MemoryGetRequest`, /repo/pkg/cortexdb/knowledge_memory_types.go:176-178. -/
def memoryGetRequest : List Field :=
  [⟨"memory_id", .leaf .str, false⟩]

/-- `MemoryDeleteRequest`, /repo/pkg/cortexdb/knowledge_memory_types.go:186-188. -/
def memoryDeleteRequest : List Field :=
  [⟨"memory_id", .leaf .str, false⟩]

/-- `MemorySearchRequest`, /repo/pkg/cortexdb/knowledge_memory_types.go:197-207. -/
def memorySearchRequest : List Field :=
  [⟨"query", .leaf .str, false⟩,
   ⟨"user_id", .leaf .str, true⟩,
   ⟨"session_id", .leaf .str, true⟩,
   ⟨"scope", .leaf .str, true⟩,
   ⟨"namespace", .leaf .str, true⟩,
   ⟨"top_k", .leaf .int, true⟩,
   ⟨"keywords", .leaf .strs, true⟩,
   ⟨"alternate_queries", .leaf .strs, true⟩,
   ⟨"retrieval_mode", .leaf .str, true⟩]

/-- /repo/pkg/cortexdb/graphrag_tools.go:215-229. -/
def def_ingest_document : Def :=
  ⟨"ingest_document", ["document_id", "content"],
   [("document_id", .leaf .str),
    ("title", .leaf .str),
    ("content", .leaf .str),
    ("collection", .leaf .str),
    ("chunk_size", .leaf .int),
    ("chunk_overlap", .leaf .int),
    ("metadata", .leaf .map)]⟩

/-- /repo/pkg/cortexdb/graphrag_tools.go:231-253. -/
def def_upsert_entities : Def :=
  ⟨"upsert_entities", ["entities"],
   [("document_id", .leaf .str),
    ("entities", entityArray)]⟩

/-- /repo/pkg/cortexdb/graphrag_tools.go:255-277. -/
def def_upsert_relations : Def :=
  ⟨"upsert_relations", ["relations"],
   [("document_id", .leaf .str),
    ("relations", relationArray)]⟩

/-- /repo/pkg/cortexdb/graphrag_tools.go:279-294. -/
def def_search_text : Def :=
  ⟨"search_text", ["query"],
   [("query", .leaf .str),
    ("collection", .leaf .str),
    ("top_k", .leaf .int),
    ("threshold", .leaf .num),
    ("keywords", .leaf .strs),
    ("alternate_queries", .leaf .strs),
    ("retrieval_mode", .leaf (.enum ["auto", "lexical", "graph"])),
    ("disable_graph", .leaf .bool)]⟩

/-- /repo/pkg/cortexdb/graphrag_tools.go:296-306. -/
def def_search_chunks_by_entities : Def :=
  ⟨"search_chunks_by_entities", ["entity_names"],
   [("entity_names", .leaf .strs),
    ("top_k", .leaf .int),
    ("max_hops", .leaf .int)]⟩

/-- /repo/pkg/cortexdb/graphrag_tools.go:308-320. -/
def def_expand_graph : Def :=
  ⟨"expand_graph", ["node_ids"],
   [("node_ids", .leaf .strs),
    ("max_hops", .leaf .int),
    ("edge_types", .leaf .strs),
    ("node_types", .leaf .strs),
    ("limit", .leaf .int)]⟩

/-- /repo/pkg/cortexdb/graphrag_tools.go:322-330. -/
def def_get_nodes : Def :=
  ⟨"get_nodes", ["node_ids"],
   [("node_ids", .leaf .strs)]⟩

/-- /repo/pkg/cortexdb/graphrag_tools.go:332-342. -/
def def_get_chunks : Def :=
  ⟨"get_chunks", ["chunk_ids"],
   [("chunk_ids", .leaf .strs),
    ("retrieval_mode", .leaf (.enum ["auto", "lexical", "graph"])),
    ("disable_graph", .leaf .bool)]⟩

/-- /repo/pkg/cortexdb/graphrag_tools.go:344-357. -/
def def_build_context : Def :=
  ⟨"build_context", ["chunk_ids"],
   [("chunk_ids", .leaf .strs),
    ("max_context_chunks", .leaf .int),
    ("max_context_chars", .leaf .int),
    ("per_document_limit", .leaf .int),
    ("retrieval_mode", .leaf (.enum ["auto", "lexical", "graph"])),
    ("disable_graph", .leaf .bool)]⟩

/-- /repo/pkg/cortexdb/graphrag_tools.go:359-380. -/
def def_search_graphrag_lexical : Def :=
  ⟨"search_graphrag_lexical", ["query"],
   [("query", .leaf .str),
    ("collection", .leaf .str),
    ("top_k", .leaf .int),
    ("max_hops", .leaf .int),
    ("max_related_chunks", .leaf .int),
    ("max_context_chunks", .leaf .int),
    ("max_context_chars", .leaf .int),
    ("per_document_limit", .leaf .int),
    ("diversity_lambda", .leaf .num),
    ("entity_names", .leaf .strs),
    ("keywords", .leaf .strs),
    ("alternate_queries", .leaf .strs),
    ("retrieval_mode", .leaf (.enum ["auto", "lexical", "graph"])),
    ("disable_graph", .leaf .bool)]⟩

/-- /repo/pkg/cortexdb/knowledge_memory_tooldefs.go:6-24. -/
def def_knowledge_save : Def :=
  ⟨"knowledge_save", ["knowledge_id", "content"],
   [("knowledge_id", .leaf .str),
    ("title", .leaf .str),
    ("content", .leaf .str),
    ("source_url", .leaf .str),
    ("author", .leaf .str),
    ("collection", .leaf .str),
    ("chunk_size", .leaf .int),
    ("chunk_overlap", .leaf .int),
    ("metadata", .leaf .map),
    ("entities", entityArray),
    ("relations", relationArray)]⟩

/-- /repo/pkg/cortexdb/knowledge_memory_tooldefs.go:26-44. -/
def def_knowledge_update : Def :=
  ⟨"knowledge_update", ["knowledge_id"],
   [("knowledge_id", .leaf .str),
    ("title", .leaf .str),
    ("content", .leaf .str),
    ("source_url", .leaf .str),
    ("author", .leaf .str),
    ("collection", .leaf .str),
    ("chunk_size", .leaf .int),
    ("chunk_overlap", .leaf .int),
    ("metadata", .leaf .map),
    ("entities", entityArray),
    ("relations", relationArray)]⟩

/-- /repo/pkg/cortexdb/knowledge_memory_tooldefs.go:46-54. -/
def def_knowledge_get : Def :=
  ⟨"knowledge_get", ["knowledge_id"],
   [("knowledge_id", .leaf .str)]⟩

/-- /repo/pkg/cortexdb/knowledge_memory_tooldefs.go:56-77. -/
def def_knowledge_search : Def :=
  ⟨"knowledge_search", ["query"],
   [("query", .leaf .str),
    ("collection", .leaf .str),
    ("top_k", .leaf .int),
    ("max_hops", .leaf .int),
    ("max_related_chunks", .leaf .int),
    ("max_context_chunks", .leaf .int),
    ("max_context_chars", .leaf .int),
    ("per_document_limit", .leaf .int),
    ("diversity_lambda", .leaf .num),
    ("entity_names", .leaf .strs),
    ("keywords", .leaf .strs),
    ("alternate_queries", .leaf .strs),
    ("retrieval_mode", .leaf (.enum ["auto", "lexical", "graph"])),
    ("disable_graph", .leaf .bool)]⟩

/-- /repo/pkg/cortexdb/knowledge_memory_tooldefs.go:79-87. -/
def def_knowledge_delete : Def :=
  ⟨"knowledge_delete", ["knowledge_id"],
   [("knowledge_id", .leaf .str)]⟩

/-- /repo/pkg/cortexdb/knowledge_memory_tooldefs.go:89-106. -/
def def_memory_save : Def :=
  ⟨"memory_save", ["memory_id", "content"],
   [("memory_id", .leaf .str),
    ("user_id", .leaf .str),
    ("session_id", .leaf .str),
    ("scope", .leaf (.enum ["global", "user", "session"])),
    ("namespace", .leaf .str),
    ("role", .leaf .str),
    ("content", .leaf .str),
    ("metadata", .leaf .map),
    ("importance", .leaf .num),
    ("ttl_seconds", .leaf .int)]⟩

/-- /repo/pkg/cortexdb/knowledge_memory_tooldefs.go:108-120. -/
def def_memory_update : Def :=
  ⟨"memory_update", ["memory_id"],
   [("memory_id", .leaf .str),
    ("content", .leaf .str),
    ("metadata", .leaf .map),
    ("importance", .leaf .num),
    ("ttl_seconds", .leaf .int)]⟩

/-- /repo/pkg/cortexdb/knowledge_memory_tooldefs.go:122-130. -/
def def_memory_get : Def :=
  ⟨"memory_get", ["memory_id"],
   [("memory_id", .leaf .str)]⟩

/-- /repo/pkg/cortexdb/knowledge_memory_tooldefs.go:132-148. -/
def def_memory_search : Def :=
  ⟨"memory_search", ["query"],
   [("query", .leaf .str),
    ("user_id", .leaf .str),
    ("session_id", .leaf .str),
    ("scope", .leaf (.enum ["global", "user", "session"])),
    ("namespace", .leaf .str),
    ("top_k", .leaf .int),
    ("keywords", .leaf .strs),
    ("alternate_queries", .leaf .strs),
    ("retrieval_mode", .leaf (.enum ["auto", "lexical"]))]⟩

/-- /repo/pkg/cortexdb/knowledge_memory_tooldefs.go:150-158. -/
def def_memory_delete : Def :=
  ⟨"memory_delete", ["memory_id"],
   [("memory_id", .leaf .str)]⟩

/-- `Definitions`, /repo/pkg/cortexdb/graphrag_tools.go:212-383, with `knowledgeMemoryToolDefinitions`, knowledge_memory_tooldefs.go:3-160. -/
def definitions : List Def :=
  [def_ingest_document,
   def_upsert_entities,
   def_upsert_relations,
   def_search_text,
   def_search_chunks_by_entities,
   def_expand_graph,
   def_get_nodes,
   def_get_chunks,
   def_build_context,
   def_search_graphrag_lexical,
   def_knowledge_save,
   def_knowledge_update,
   def_knowledge_get,
   def_knowledge_search,
   def_knowledge_delete,
   def_memory_save,
   def_memory_update,
   def_memory_get,
   def_memory_search,
   def_memory_delete]

/-- `Call`, /repo/pkg/cortexdb/graphrag_tools.go:386-511: the request a tool name is decoded to and the method that answers; `none` is "unknown tool". -/
def call (name : String) : Option (List Field × String) :=
  match name with
  | "ingest_document" => some (toolIngestDocumentRequest, "IngestDocument")
  | "upsert_entities" => some (toolUpsertEntitiesRequest, "UpsertEntities")
  | "upsert_relations" => some (toolUpsertRelationsRequest, "UpsertRelations")
  | "search_text" => some (toolSearchTextRequest, "SearchText")
  | "search_chunks_by_entities" => some (toolSearchChunksByEntitiesRequest, "SearchChunksByEntities")
  | "expand_graph" => some (toolExpandGraphRequest, "ExpandGraph")
  | "get_nodes" => some (toolGetNodesRequest, "GetNodes")
  | "get_chunks" => some (toolGetChunksRequest, "GetChunks")
  | "build_context" => some (toolBuildContextRequest, "BuildContext")
  | "search_graphrag_lexical" => some (toolSearchGraphRAGLexicalRequest, "SearchGraphRAGLexical")
  | "knowledge_save" => some (knowledgeSaveRequest, "SaveKnowledge")
  | "knowledge_update" => some (knowledgeUpdateRequest, "UpdateKnowledge")
  | "knowledge_get" => some (knowledgeGetRequest, "GetKnowledge")
  | "knowledge_search" => some (knowledgeSearchRequest, "SearchKnowledge")
  | "knowledge_delete" => some (knowledgeDeleteRequest, "DeleteKnowledge")
  | "memory_save" => some (memorySaveRequest, "SaveMemory")
  | "memory_update" => some (memoryUpdateRequest, "UpdateMemory")
  | "memory_get" => some (memoryGetRequest, "GetMemory")
  | "memory_search" => some (memorySearchRequest, "SearchMemory")
  | "memory_delete" => some (memoryDeleteRequest, "DeleteMemory")
  | _ => none

/-- `NewMCPServer`, /repo/pkg/cortexdb/mcp.go:49-248: key of the definition, request and method of each tool added. -/
def mcpTools : List (String × List Field × String) :=
  [("ingest_document", toolIngestDocumentRequest, "IngestDocument"),
   ("upsert_entities", toolUpsertEntitiesRequest, "UpsertEntities"),
   ("upsert_relations", toolUpsertRelationsRequest, "UpsertRelations"),
   ("search_text", toolSearchTextRequest, "SearchText"),
   ("search_chunks_by_entities", toolSearchChunksByEntitiesRequest, "SearchChunksByEntities"),
   ("expand_graph", toolExpandGraphRequest, "ExpandGraph"),
   ("get_nodes", toolGetNodesRequest, "GetNodes"),
   ("get_chunks", toolGetChunksRequest, "GetChunks"),
   ("build_context", toolBuildContextRequest, "BuildContext"),
   ("search_graphrag_lexical", toolSearchGraphRAGLexicalRequest, "SearchGraphRAGLexical"),
   ("knowledge_save", knowledgeSaveRequest, "SaveKnowledge"),
   ("knowledge_update", knowledgeUpdateRequest, "UpdateKnowledge"),
   ("knowledge_get", knowledgeGetRequest, "GetKnowledge"),
   ("knowledge_search", knowledgeSearchRequest, "SearchKnowledge"),
   ("knowledge_delete", knowledgeDeleteRequest, "DeleteKnowledge"),
   ("memory_save", memorySaveRequest, "SaveMemory"),
   ("memory_update", memoryUpdateRequest, "UpdateMemory"),
   ("memory_get", memoryGetRequest, "GetMemory"),
   ("memory_search", memorySearchRequest, "SearchMemory"),
   ("memory_delete", memoryDeleteRequest, "DeleteMemory")]

end Verif.Tools
