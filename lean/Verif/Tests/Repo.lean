import Verif.Tests.Util
set_option maxRecDepth 100000
set_option autoImplicit false

namespace Yaserde.Tests

/-- A struct definition. -/
def mkS (name : Str) (fields : List FieldDef) (attrs : Attrs := {}) : Path × TypeDef :=
  ([name], .struct { name, attrs, fields })

/-- An enum definition. -/
def mkE (name : Str) (variants : List VariantDef) (dflt : Val) (attrs : Attrs := {}) : Path × TypeDef :=
  ([name], .enum { name, attrs, variants, dflt })

def rn (s : Str) : Attrs := { rename := some s }
def vU (ident : Str) (attrs : Attrs := {}) : VariantDef := { ident, attrs, shape := .unit }
def vN (ident : Str) (t : FTy) (attrs : Attrs := {}) : VariantDef := { ident, attrs, shape := .newtype t }
def O (t : FTy) : FTy := .opt t
def V (t : FTy) : FTy := .vec t
def flat : Attrs := { flatten := true }
def s (x : Str) : Val := .str x
def i (x : Int) : Val := .int x

/-! `/repo/yaserde/tests/deserializer.rs` -/

def book : Env := envOf [mkS c!"Book" [F c!"author" S, F c!"title" S] (rn c!"book")]

-- de_basic
example : deOk book c!"Book" c!"<book><author>Antoine de Saint-Exupéry</author><title>Little prince</title></book>"
  (.struct [s c!"Antoine de Saint-Exupéry", s c!"Little prince"]) = true := by decide +kernel
example : deOk book c!"Book" c!"<book><title>Little prince</title><author>Antoine de Saint-Exupéry</author></book>"
  (.struct [s c!"Antoine de Saint-Exupéry", s c!"Little prince"]) = true := by decide +kernel

-- tests/errors.rs
example : deErr book c!"Book" [] c!"Unexpected end of stream: no root element found" = true := by decide +kernel
example : deErr book c!"Book" c!"<book><author>Antoine de Saint-Exupéry<title>Little prince</title></book>"
  c!"Unexpected closing tag: book != author" = true := by decide +kernel

-- de_keyword
example : deOk (envOf [mkS c!"Book" [F c!"r#ref" S { isAttr := true, rename := some c!"ref" }] (rn c!"book")]) c!"Book"
  c!"<book ref=\"978-1522968122\"></book>" (.struct [s c!"978-1522968122"]) = true := by decide +kernel

-- de_dash_param
def dash : Env := envOf [mkS c!"Book" [F c!"author" S (rn c!"author-release"), F c!"title" S] (rn c!"book")]
example : deOk dash c!"Book" c!"<book><title>Little prince</title><author-release>Antoine de Saint-Exupéry</author-release></book>"
  (.struct [s c!"Antoine de Saint-Exupéry", s c!"Little prince"]) = true := by decide +kernel

-- de_multiple_segments
def multi : Env := envOf [
  mkS c!"Book" [F c!"author" S, F c!"title" S, F c!"page" (.struct [c!"other_mod", c!"Page"])] (rn c!"book"),
  ([c!"other_mod", c!"Page"], .struct { name := c!"Page", fields := [F c!"number" (I .i32), F c!"text" S] })]
example : deOk multi c!"Book" c!"
      <book>
        <author>Antoine de Saint-Exupéry</author>
        <title>Little prince</title>
        <page>
          <number>40</number>
          <text>The Earth is not just an ordinary planet!</text>
        </page>
      </book>
    " (.struct [s c!"Antoine de Saint-Exupéry", s c!"Little prince",
        .struct [i 40, s c!"The Earth is not just an ordinary planet!"]]) = true := by decide +kernel

-- de_list_of_items
def libs : Env := envOf [mkS c!"Library" [F c!"books" (V S)] (rn c!"library"),
  mkS c!"Libraries" [F c!"library" (V (T c!"Library"))] (rn c!"libraries")]
example : deOk libs c!"Library" c!"<library><books>Little Prince</books><books>Harry Potter</books></library>"
  (.struct [.vec [s c!"Little Prince", s c!"Harry Potter"]]) = true := by decide +kernel
example : deOk libs c!"Libraries" c!"<libraries><library><books>Little Prince</books></library><library><books>Harry Potter</books></library></libraries>"
  (.struct [.vec [.struct [.vec [s c!"Little Prince"]], .struct [.vec [s c!"Harry Potter"]]]]) = true := by decide +kernel

-- de_attributes, de_rename, ser_rename, ser_attributes
def ren : Env := envOf [
  mkS c!"XmlStruct" [F c!"item" S { isAttr := true, rename := some c!"Item" }, F c!"sub_struct" (T c!"SubStruct") (rn c!"sub"),
    F c!"with_dots" S (rn c!"maj.min.bug")] (rn c!"base"),
  mkS c!"SubStruct" [F c!"subitem" S { isAttr := true, rename := some c!"sub_item" }] (rn c!"sub")]
example : deOk ren c!"XmlStruct" c!"<base Item=\"something\"><sub sub_item=\"sub_something\"></sub><maj.min.bug>2.0.1</maj.min.bug></base>"
  (.struct [s c!"something", .struct [s c!"sub_something"], s c!"2.0.1"]) = true := by decide +kernel
example : serOk ren c!"XmlStruct" (.struct [s c!"something", .struct [s c!"sub_something"], s c!"2.0.2"])
  c!"<base Item=\"something\"><sub sub_item=\"sub_something\" /><maj.min.bug>2.0.2</maj.min.bug></base>" = true := by decide +kernel

-- de_attributes_complex, ser_attributes_complex
def attrEnum : Env := envOf [
  ([c!"other_mod", c!"AttrEnum"], .enum {
    name := c!"AttrEnum", dflt := .enum 0 [], variants := [vU c!"Variant1" (rn c!"variant 1"), vU c!"Variant2" (rn c!"variant 2")] }),
  mkS c!"Struct" [F c!"attr_option_string" (O S) attr, F c!"attr_option_enum" (O (.struct [c!"other_mod", c!"AttrEnum"])) attr]]
example : both attrEnum c!"Struct" (.struct [.none, .none]) c!"<Struct />" = true := by decide +kernel
example : both attrEnum c!"Struct" (.struct [.some (s c!"some value"), .some (.enum 1 [])])
  c!"
    <Struct attr_option_string=\"some value\" attr_option_enum=\"variant 2\" />
    " = true := by decide +kernel

-- de_attributes_with_same_name_field
def sameName : Env := envOf [mkS c!"Struct" [F c!"attribute" (O S) { isAttr := true, rename := some c!"content" }, F c!"content" (O S)]]
example : deOk sameName c!"Struct" c!"<Struct />" (.struct [.none, .none]) = true := by decide +kernel
example : deOk sameName c!"Struct" c!"<Struct content=\"attribute\" />" (.struct [.some (s c!"attribute"), .none]) = true := by decide +kernel
example : deOk sameName c!"Struct" c!"<Struct content=\"attribute\"><content>Field</content></Struct>"
  (.struct [.some (s c!"attribute"), .some (s c!"Field")]) = true := by decide +kernel

-- de/ser_text_content_with_attributes
def textAttr : Env := envOf [
  mkS c!"XmlStruct" [F c!"item" S { isAttr := true, rename := some c!"Item" }, F c!"sub_struct" (T c!"SubStruct") (rn c!"sub")] (rn c!"base"),
  mkS c!"SubStruct" [F c!"subitem" S { isAttr := true, rename := some c!"sub_item" }, F c!"text" S { text := true }] (rn c!"sub")]
example : both textAttr c!"XmlStruct" (.struct [s c!"something", .struct [s c!"sub_something", s c!"text_content"]])
  c!"<base Item=\"something\"><sub sub_item=\"sub_something\">text_content</sub></base>" = true := by decide +kernel

-- de/ser_text_attribute_on_optional_string
def textOpt : Env := envOf [mkS c!"XmlStruct" [F c!"text" (O S) { text := true }] (rn c!"base")]
example : both textOpt c!"XmlStruct" (.struct [.some (s c!"Testing text")]) c!"<base>Testing text</base>" = true := by decide +kernel
example : both textOpt c!"XmlStruct" (.struct [.none]) c!"<base></base>" = true := by decide +kernel

-- de_enum, de_attribute_enum
def colorE : Path × TypeDef := mkE c!"Color" [vU c!"White", vU c!"Black"] (.enum 0 []) (rn c!"color")
def enumEnv : Env := envOf [colorE, mkS c!"XmlStruct" [F c!"background" (T c!"Color")] (rn c!"base"),
  mkS c!"Colors" [F c!"items" (V (T c!"Color"))] (rn c!"base"),
  mkS c!"A" [F c!"background" (T c!"Color") attr] (rn c!"base")]
example : deOk enumEnv c!"XmlStruct" c!"<?xml version=\"1.0\" encoding=\"utf-8\"?><base><background>Black</background></base>"
  (.struct [.enum 1 []]) = true := by decide +kernel
example : deOk enumEnv c!"Colors" c!"<?xml version=\"1.0\" encoding=\"utf-8\"?><base><items>Black</items><items>White</items></base>"
  (.struct [.vec [.enum 1 [], .enum 0 []]]) = true := by decide +kernel
example : deOk enumEnv c!"A" c!"<?xml version=\"1.0\" encoding=\"utf-8\"?><base background=\"Black\" />"
  (.struct [.enum 1 []]) = true := by decide +kernel

-- de_complex_enum
def cplx : Env := envOf [mkS c!"XmlStruct" [F c!"background" (T c!"Color")],
  mkS c!"OtherStruct" [F c!"fi" (I .i32), F c!"se" (I .i32)],
  mkE c!"Color" [vU c!"White", vN c!"Black" S, vN c!"Orange" S, vN c!"Red" (I .i32), vN c!"Green" (T c!"OtherStruct"),
    vN c!"Yellow" (O S), vN c!"Brown" (O (T c!"OtherStruct")), vN c!"Blue" (V S), vN c!"Purple" (V (I .i32)),
    vN c!"Magenta" (V (T c!"OtherStruct")), vN c!"Cyan" (V (T c!"OtherStruct")) (rn c!"NotSoCyan"),
    vN c!"Dotted" (I .u32) (rn c!"renamed.with.dots")] (.enum 0 [])]
def os (a b : Int) : Val := .struct [i a, i b]
def cplxOk (body : Str) (v : Val) : Bool :=
  deOk cplx c!"XmlStruct" (c!"<?xml version=\"1.0\" encoding=\"utf-8\"?>
    <base>
      <background>
        " ++ body ++ c!"
      </background>
    </base>
  ") (.struct [v])
example : cplxOk c!"<Black>text</Black>" (.enum 1 [s c!"text"]) = true := by decide +kernel
example : cplxOk c!"<Orange>text</Orange>" (.enum 2 [s c!"text"]) = true := by decide +kernel
example : cplxOk c!"<Red>56</Red>" (.enum 3 [i 56]) = true := by decide +kernel
example : cplxOk c!"<Green>
          <fi>12</fi>
          <se>23</se>
        </Green>" (.enum 4 [os 12 23]) = true := by decide +kernel
example : cplxOk c!"<Yellow>text</Yellow>" (.enum 5 [.some (s c!"text")]) = true := by decide +kernel
example : cplxOk c!"<Brown>
          <fi>12</fi>
          <se>23</se>
        </Brown>" (.enum 6 [.some (os 12 23)]) = true := by decide +kernel
example : cplxOk c!"<Blue>abc</Blue>
        <Blue>def</Blue>" (.enum 7 [.vec [s c!"abc", s c!"def"]]) = true := by decide +kernel
example : cplxOk c!"<Purple>12</Purple>
        <Purple>43</Purple>" (.enum 8 [.vec [i 12, i 43]]) = true := by decide +kernel
example : cplxOk c!"<Magenta><fi>12</fi><se>23</se></Magenta>
        <Magenta><fi>63</fi><se>98</se></Magenta>" (.enum 9 [.vec [os 12 23, os 63 98]]) = true := by decide +kernel
example : cplxOk c!"<NotSoCyan><fi>12</fi><se>23</se></NotSoCyan>
        <NotSoCyan><fi>63</fi><se>98</se></NotSoCyan>" (.enum 10 [.vec [os 12 23, os 63 98]]) = true := by decide +kernel
example : cplxOk c!"<renamed.with.dots>54</renamed.with.dots>" (.enum 11 [i 54]) = true := by decide +kernel

-- de_subitem_issue_12*
def issue12 : Env := envOf [mkS c!"Struct" [F c!"id" (I .i32)], mkS c!"SubStruct" [F c!"id" (I .i32)],
  mkS c!"Struct2" [F c!"id" (I .i32), F c!"sub" (T c!"SubStruct") (rn c!"SubStruct")] (rn c!"Struct"),
  mkS c!"Struct3" [F c!"id" (I .i32) attr] (rn c!"Struct"), mkS c!"SubA" [F c!"id" (I .i32) attr] (rn c!"SubStruct"),
  mkS c!"Struct4" [F c!"id" (I .i32) attr, F c!"sub1" (T c!"SubA"), F c!"sub2" (T c!"SubA")] (rn c!"Struct")]
def doc12 : Str := c!"<?xml version=\"1.0\" encoding=\"utf-8\"?>
    <Struct>
      <id>54</id>
      <SubStruct>
        <id>86</id>
      </SubStruct>
    </Struct>
    "
example : deOk issue12 c!"Struct" doc12 (.struct [i 54]) = true := by decide +kernel
example : deOk issue12 c!"Struct2" doc12 (.struct [i 54, .struct [i 86]]) = true := by decide +kernel
example : deOk issue12 c!"Struct3" c!"<Struct id=\"54\">
      <SubStruct id=\"86\" />
    </Struct>" (.struct [i 54]) = true := by decide +kernel
example : deOk issue12 c!"Struct4" c!"<?xml version=\"1.0\" encoding=\"utf-8\"?>
    <Struct id=\"54\">
      <sub1 id=\"63\" />
      <sub2 id=\"72\" />
    </Struct>
    " (.struct [i 54, .struct [i 63], .struct [i 72]]) = true := by decide +kernel

-- de_same_field_name_sub, de_same_field_name_sub_sub
def sub1 : Env := envOf [mkS c!"SubStruct" [F c!"sub" (O (I .i32))], mkS c!"Struct" [F c!"sub" (T c!"SubStruct")]]
example : deOk sub1 c!"Struct" c!"<Struct><sub /></Struct>" (.struct [.struct [.none]]) = true := by decide +kernel
example : deOk sub1 c!"Struct" c!"<Struct><sub><sub>42</sub></sub></Struct>" (.struct [.struct [.some (i 42)]]) = true := by decide +kernel
def sub2 : Env := envOf [mkS c!"SubSubStruct" [F c!"sub" (I .i32)], mkS c!"SubStruct" [F c!"sub" (O (T c!"SubSubStruct"))],
  mkS c!"Struct" [F c!"sub" (T c!"SubStruct")]]
example : deOk sub2 c!"Struct" c!"<Struct><sub /></Struct>" (.struct [.struct [.none]]) = true := by decide +kernel
example : deOk sub2 c!"Struct" c!"<Struct>
      <sub>
        <sub>
          <sub>
            42
          </sub>
        </sub>
      </sub>
    </Struct>" (.struct [.struct [.some (.struct [i 42])]]) = true := by decide +kernel

-- de_same_field_name_but_some_other_fields_or_something
def foo : Env := envOf [mkS c!"FooOuter" [F c!"other" B, F c!"foo" (O (T c!"FooInner")) (rn c!"foo")] (rn c!"foo"),
  mkS c!"FooInner" [F c!"blah" B]]
example : both foo c!"FooOuter" (.struct [.bool false, .some (.struct [.bool false])])
  c!"
    <foo>
      <other>false</other>
      <foo>
        <blah>false</blah>
      </foo>
    </foo>
  " = true := by decide +kernel

-- de_attribute_sequence
def seq : Env := envOf [mkE c!"Inner" [vU c!"Foo" (rn c!"foo"), vU c!"Bar" (rn c!"bar")] (.enum 0 []),
  mkS c!"Outer" [F c!"seq1" (V (I .i32)) attr, F c!"seq2" (V (T c!"Inner")) attr, F c!"seq3" (V S) attr]]
example : deOk seq c!"Outer" c!"<Outer seq1=\"1 2 3 4\" seq2=\"foo foo bar\" seq3=\"one two\" />"
  (.struct [.vec [i 1, i 2, i 3, i 4], .vec [.enum 0 [], .enum 0 [], .enum 1 []], .vec [s c!"one", s c!"two"]]) = true := by decide +kernel

/-! `/repo/yaserde/tests/enum.rs` -/

-- basic_enum
def basicEnum : Env := envOf [mkS c!"XmlStruct" [F c!"color" (T c!"Color")] (rn c!"base"),
  mkE c!"Color" [vU c!"White", vU c!"Black", { ident := c!"Custom", attrs := rn c!"custom", shape := .named [
    F c!"enabled" S, F c!"u8_value" (I .u8), F c!"i8_value" (I .i8), F c!"f32_value" (.simple .f32), F c!"color" (T c!"RGBColor"),
    F c!"alpha" (T c!"Alpha"), F c!"alphas" (V (T c!"Alpha"))] }] (.enum 0 []) (rn c!"color"),
  mkS c!"RGBColor" [F c!"red" S, F c!"green" S, F c!"blue" S],
  mkE c!"Alpha" [vU c!"Transparent", vU c!"Opaque"] (.enum 0 [])]
example : both basicEnum c!"XmlStruct" (.struct [.enum 1 []]) c!"<base><color>Black</color></base>" = true := by decide +kernel
example : serOk basicEnum c!"XmlStruct" (.struct [.enum 2 [s c!"true", i 8, i (-8), .f32 32,
   .struct [s c!"0", s c!"128", s c!"255"], .enum 1 [], .vec [.enum 1 [], .enum 0 []]]])
  c!"
<base>
<color><enabled>true</enabled>
<u8_value>8</u8_value>
<i8_value>-8</i8_value>
<f32_value>32</f32_value>
<color><red>0</red><green>128</green><blue>255</blue></color>
<alpha>Opaque</alpha>
<alphas>Opaque</alphas>
<alphas>Transparent</alphas>
</color>
</base>" = true := by decide +kernel

-- attribute_enum
def pink : Env := envOf [mkS c!"XmlStruct" [F c!"color" (T c!"Color") attr] (rn c!"base"),
  mkE c!"Color" [vU c!"Pink" (rn c!"pink")] (.enum 0 []) (rn c!"color")]
example : both pink c!"XmlStruct" (.struct [.enum 0 []]) c!"<base color=\"pink\" />" = true := by decide +kernel

-- attribute_enum2
def ae2 : Env := envOf [
  mkS c!"Child1" [F c!"val" S { isAttr := true, rename := some c!"val" }] (rn c!"child1"),
  mkS c!"Child2" [F c!"num" (I .u8) attr] (rn c!"child2"),
  mkE c!"Base" [vN c!"C1" (T c!"Child1") { flatten := true, rename := some c!"child1" },
    vN c!"C2" (T c!"Child2") { flatten := true, rename := some c!"child2" }] (.enum 0 [.struct [s c!"hello world"]]) flat,
  mkE c!"Base2" [vN c!"C1" (T c!"Child1") flat] (.enum 0 [.struct [s c!"hello world"]]) (rn c!"base")]
example : both ae2 c!"Base" (.enum 0 [.struct [s c!"hello world"]]) c!"<child1 val=\"hello world\" />" = true := by decide +kernel
example : both ae2 c!"Base" (.enum 1 [.struct [i 7]]) c!"<child2 num=\"7\" />" = true := by decide +kernel
example : both ae2 c!"Base2" (.enum 0 [.struct [s c!"hello world"]]) c!"<base><child1 val=\"hello world\" /></base>" = true := by decide +kernel

-- unnamed_enum
def unnamed : Env := envOf [mkS c!"XmlStruct" [F c!"color" (T c!"Enum")] (rn c!"base"),
  mkS c!"OtherStruct" [F c!"fi" (I .i32), F c!"se" (I .i32)],
  mkE c!"Enum" [vU c!"Simple", vN c!"Field" S, vN c!"FullPath" S, vN c!"Integer" (I .i32), vN c!"UserStruct" (T c!"OtherStruct"),
    vN c!"OptionString" (O S), vN c!"OptionUserStruct" (O (T c!"OtherStruct")), vN c!"Strings" (V S), vN c!"Ints" (V (I .i32)),
    vN c!"Structs" (V (T c!"OtherStruct")), vN c!"ToRename" (I .u32) (rn c!"renamed"),
    vN c!"ToRenameDots" (I .u32) (rn c!"renamed.with.dots")] (.enum 0 [])]
def un (v : Val) (body : Str) : Bool := both unnamed c!"XmlStruct" (.struct [v]) (c!"<base><color>" ++ body ++ c!"</color></base>")
example : un (.enum 1 [s c!"some_text"]) c!"<Field>some_text</Field>" = true := by decide +kernel
example : un (.enum 2 [s c!"some_text"]) c!"<FullPath>some_text</FullPath>" = true := by decide +kernel
example : un (.enum 3 [i 56]) c!"<Integer>56</Integer>" = true := by decide +kernel
example : un (.enum 4 [os 24 42]) c!"<UserStruct><fi>24</fi><se>42</se></UserStruct>" = true := by decide +kernel
example : un (.enum 5 [.some (s c!"some_text")]) c!"<OptionString>some_text</OptionString>" = true := by decide +kernel
example : serOk unnamed c!"XmlStruct" (.struct [.enum 5 [.none]]) c!"<base><color /></base>" = true := by decide +kernel
example : un (.enum 6 [.some (os 12 23)]) c!"<OptionUserStruct><fi>12</fi><se>23</se></OptionUserStruct>" = true := by decide +kernel
example : serOk unnamed c!"XmlStruct" (.struct [.enum 6 [.none]]) c!"<base><color /></base>" = true := by decide +kernel
example : un (.enum 7 [.vec [s c!"abc", s c!"def"]]) c!"<Strings>abc</Strings><Strings>def</Strings>" = true := by decide +kernel
example : un (.enum 8 [.vec [i 23, i 45]]) c!"<Ints>23</Ints><Ints>45</Ints>" = true := by decide +kernel
example : un (.enum 9 [.vec [os 12 23, os 34 45]]) c!"<Structs><fi>12</fi><se>23</se></Structs><Structs><fi>34</fi><se>45</se></Structs>" = true := by decide +kernel
example : un (.enum 10 [i 87]) c!"<renamed>87</renamed>" = true := by decide +kernel
example : un (.enum 11 [i 84]) c!"<renamed.with.dots>84</renamed.with.dots>" = true := by decide +kernel

-- tagged_enum
def tagged : Env := envOf [
  mkE c!"XmlEnum" [vU c!"Foo" (rn c!"foo"), vU c!"Bar" (rn c!"bar")] (.enum 0 []) { tag := some c!"type", rename := some c!"foobar" },
  mkS c!"XmlStruct" [F c!"foo_bar" (T c!"XmlEnum") (rn c!"foobar")] (rn c!"base")]
example : both tagged c!"XmlEnum" (.enum 0 []) c!"<foobar type=\"foo\" />" = true := by decide +kernel
example : both tagged c!"XmlEnum" (.enum 1 []) c!"<foobar type=\"bar\" />" = true := by decide +kernel
example : both tagged c!"XmlStruct" (.struct [.enum 0 []]) c!"<base><foobar type=\"foo\" /></base>" = true := by decide +kernel

/-! `/repo/yaserde/tests/flatten.rs` -/

-- basic_flatten
def dateEnv : Env := envOf [
  mkS c!"DateTime" [F c!"date" (T c!"Date") flat, F c!"time" S, F c!"kind" (T c!"DateKind") flat],
  mkS c!"Date" [F c!"year" (I .i32), F c!"month" (I .i32), F c!"day" (I .i32), F c!"extra" (T c!"Extra") flat,
    F c!"optional_extra" (O (T c!"OptionalExtra")) flat],
  mkS c!"Extra" [F c!"week" (I .i32), F c!"century" (I .i32)],
  mkS c!"OptionalExtra" [F c!"lunar_day" (I .i32)],
  mkE c!"DateKind" [vN c!"Holidays" (V S) (rn c!"holidays"), vU c!"Working" (rn c!"working")] (.enum 1 [])]
example : both dateEnv c!"DateTime"
  (.struct [.struct [i 2020, i 1, i 1, .struct [i 1, i 21], .some (.struct [i 1])], s c!"10:40:03",
    .enum 0 [.vec [s c!"New Year's Day", s c!"Novy God Day", s c!"Polar Bear Swim Day"]]])
  c!"
    <DateTime>
      <year>2020</year>
      <month>1</month>
      <day>1</day>
      <week>1</week>
      <century>21</century>
      <lunar_day>1</lunar_day>
      <time>10:40:03</time>
      <holidays>New Year's Day</holidays>
      <holidays>Novy God Day</holidays>
      <holidays>Polar Bear Swim Day</holidays>
    </DateTime>" = true := by decide +kernel

-- root_flatten_struct
def rootFlat : Env := envOf [mkS c!"Content" [F c!"binary_data" S, F c!"string_data" S] flat]
example : both rootFlat c!"Content" (.struct [s c!"binary", s c!"string"])
  c!"<binary_data>binary</binary_data><string_data>string</string_data>" = true := by decide +kernel

-- root_flatten_enum
def rootFlatE : Env := envOf [mkE c!"Content" [vN c!"Binary" (T c!"Binary"), vN c!"Data" (T c!"Data")] .none flat,
  mkS c!"Binary" [F c!"binary_data" S], mkS c!"Data" [F c!"string_data" S]]
example : serOk rootFlatE c!"Content" (.enum 0 [.struct [s c!"binary"]]) c!"<Binary><binary_data>binary</binary_data></Binary>" = true := by decide +kernel
example : serOk rootFlatE c!"Content" (.enum 1 [.struct [s c!"string"]]) c!"<Data><string_data>string</string_data></Data>" = true := by decide +kernel

-- flatten_attribute
def flatAttr : Env := envOf [
  mkS c!"HtmlText" [F c!"text_attributes" (T c!"TextAttributes") flat, F c!"display" S attr],
  mkS c!"TextAttributes" [F c!"bold" B attr, F c!"font" (T c!"FontAttributes") flat],
  mkS c!"FontAttributes" [F c!"size" (I .u32) { isAttr := true, pfx := some c!"ns" }]
    { namespaces := [(c!"ns", c!"http://www.sample.com/ns/domain")] }]
example : both flatAttr c!"HtmlText" (.struct [.struct [.bool true, .struct [i 24]], s c!"block"])
  c!"
    <HtmlText xmlns:ns=\"http://www.sample.com/ns/domain\" display=\"block\" bold=\"true\" ns:size=\"24\" />" = true := by decide +kernel

-- flatten_attribute_and_child
def flatChild : Env := envOf [mkS c!"Node" [F c!"base" (T c!"Base") flat, F c!"value" (T c!"StringValue")],
  mkS c!"Base" [F c!"id" S attr], mkS c!"StringValue" [F c!"string" S { text := true }]]
example : both flatChild c!"Node" (.struct [.struct [s c!"Foo"], .struct [s c!"Bar"]])
  c!"<Node id=\"Foo\"><value>Bar</value></Node>" = true := by decide +kernel

-- flatten_name_in_unknown_child
def flatUnk : Env := envOf [mkS c!"Node" [F c!"base" (T c!"Base") flat, F c!"value" (T c!"Value")],
  mkS c!"Base" [F c!"id" S attr], mkE c!"Value" [vN c!"Foo" (T c!"FooStruct")] (.enum 0 [.struct []]), mkS c!"FooStruct" []]
example : serOk flatUnk c!"Node" (.struct [.struct [s c!"Foo"], .enum 0 [.struct []]])
  c!"<Node id=\"Foo\"><value><Foo /></value></Node>" = true := by decide +kernel
example : deOk flatUnk c!"Node" c!"<Node id=\"Foo\"><value><SomethingThatDoesntExist><value></value></SomethingThatDoesntExist></value></Node>"
  (.struct [.struct [s c!"Foo"], .enum 0 [.struct []]]) = true := by decide +kernel

/-! `/repo/yaserde/tests/default.rs` -/

def dfl (ident : Str) (ty : FTy) (v : Val) (attrs : Attrs := {}) : FieldDef :=
  { ident, ty, attrs, dflt := some { val := v, ne := fun w => !(w.beq v) } }
def dflS : Env := envOf [mkS c!"XmlStruct" [dfl c!"background" S (s c!"my_default_value")] (rn c!"base")]
example : both dflS c!"XmlStruct" (.struct [s c!"my_default_value"]) c!"<base />" = true := by decide +kernel
example : both dflS c!"XmlStruct" (.struct [s c!"my_value"]) c!"<base><background>my_value</background></base>" = true := by decide +kernel
def dflB : Env := envOf [mkS c!"XmlStruct" [dfl c!"background" B (.bool true)] (rn c!"base")]
example : both dflB c!"XmlStruct" (.struct [.bool true]) c!"<base />" = true := by decide +kernel
example : both dflB c!"XmlStruct" (.struct [.bool false]) c!"<base><background>false</background></base>" = true := by decide +kernel
def dflN : Env := envOf [mkS c!"XmlStruct" [dfl c!"background" (I .u8) (i 6)] (rn c!"base")]
example : both dflN c!"XmlStruct" (.struct [i 6]) c!"<base />" = true := by decide +kernel
example : both dflN c!"XmlStruct" (.struct [i 4]) c!"<base><background>4</background></base>" = true := by decide +kernel
def dflA : Env := envOf [mkS c!"XmlStruct" [dfl c!"background" S (s c!"my_default_value") attr] (rn c!"base")]
example : both dflA c!"XmlStruct" (.struct [s c!"my_default_value"]) c!"<base />" = true := by decide +kernel
example : both dflA c!"XmlStruct" (.struct [s c!"black"]) c!"<base background=\"black\" />" = true := by decide +kernel

/-! `/repo/yaserde/tests/namespace.rs` (the URIs shortened) -/

def nsP (p : Str) : Attrs := { pfx := some p }
-- struct_simple_namespace / struct_multiple_namespaces / struct_partial_namespace
def nsBook : Env := envOf [
  mkS c!"Book" [F c!"author" S (nsP c!"ns"), F c!"title" S (nsP c!"ns")]
    { rename := some c!"book", pfx := some c!"ns", namespaces := [(c!"ns", c!"http://d")] },
  mkS c!"Book2" [F c!"author" S (nsP c!"ns"), F c!"title" S (nsP c!"ns2")]
    { rename := some c!"book", pfx := some c!"ns", namespaces := [(c!"ns", c!"http://d"), (c!"ns2", c!"http://d2")] },
  mkS c!"Book3" [F c!"author" S, F c!"title" S (nsP c!"ns")]
    { rename := some c!"book", pfx := some c!"ns", namespaces := [(c!"ns", c!"http://d")] }]
def prince : Val := .struct [s c!"Antoine de Saint-Exupéry", s c!"Little prince"]
example : both nsBook c!"Book" prince c!"
    <ns:book xmlns:ns=\"http://d\">
      <ns:author>Antoine de Saint-Exupéry</ns:author>
      <ns:title>Little prince</ns:title>
    </ns:book>
  " = true := by decide +kernel
example : both nsBook c!"Book2" prince c!"
    <ns:book xmlns:ns=\"http://d\" xmlns:ns2=\"http://d2\">
      <ns:author>Antoine de Saint-Exupéry</ns:author>
      <ns2:title>Little prince</ns2:title>
    </ns:book>
  " = true := by decide +kernel
example : both nsBook c!"Book3" prince c!"
    <ns:book xmlns:ns=\"http://d\">
      <author>Antoine de Saint-Exupéry</author>
      <ns:title>Little prince</ns:title>
    </ns:book>
  " = true := by decide +kernel
-- struct_sub_namespace_definition
example : deOk nsBook c!"Book2" c!"
    <ns:book xmlns:ns=\"http://d\">
      <ns:author>Antoine de Saint-Exupéry</ns:author>
      <ns2:title xmlns:ns2=\"http://d2\">Little prince</ns2:title>
    </ns:book>
  " prince = true := by decide +kernel
-- struct_bad_namespace
example : deErr nsBook c!"Book2" c!"
    <ns:book xmlns:ns=\"http://other\">
      <ns:author>Antoine de Saint-Exupéry</ns:author>
      <ns:title>Little prince</ns:title>
    </ns:book>
  " c!"bad namespace for book, found http://other" = true := by decide +kernel
-- struct_namespace_nested / struct_namespace_nested_defined_at_root
def nsNest : Env := envOf [
  mkS c!"A" [F c!"alpha" (I .i32) (nsP c!"nsa")] { pfx := some c!"nsa", namespaces := [(c!"nsa", c!"http://a")] },
  mkS c!"B" [F c!"nested" (T c!"A") (nsP c!"nsb")] { pfx := some c!"nsb", namespaces := [(c!"nsb", c!"http://b")] },
  mkS c!"B2" [F c!"nested" (T c!"A") (nsP c!"nsb")]
    { rename := some c!"B", pfx := some c!"nsb", namespaces := [(c!"nsa", c!"http://a"), (c!"nsb", c!"http://b")] }]
example : both nsNest c!"B" (.struct [.struct [i 32]]) c!"
    <nsb:B xmlns:nsb=\"http://b\">
      <nsb:nested xmlns:nsa=\"http://a\">
        <nsa:alpha>32</nsa:alpha>
      </nsb:nested>
    </nsb:B>
  " = true := by decide +kernel
example : both nsNest c!"B2" (.struct [.struct [i 32]]) c!"
    <nsb:B xmlns:nsa=\"http://a\" xmlns:nsb=\"http://b\">
      <nsb:nested>
        <nsa:alpha>32</nsa:alpha>
      </nsb:nested>
    </nsb:B>
  " = true := by decide +kernel
-- struct_attribute_namespace
def nsAttr : Env := envOf [mkS c!"XmlStruct" [F c!"item_1" S (nsP c!"ns1"), F c!"item_2" S { isAttr := true, pfx := some c!"ns2" }]
  { rename := some c!"root", namespaces := [(c!"ns1", c!"http://d1"), (c!"ns2", c!"http://d2")] }]
example : both nsAttr c!"XmlStruct" (.struct [s c!"something 1", s c!"something 2"]) c!"
    <root xmlns:ns1=\"http://d1\" xmlns:ns2=\"http://d2\" ns2:item_2=\"something 2\">
      <ns1:item_1>something 1</ns1:item_1>
    </root>
  " = true := by decide +kernel
-- struct_implicit_default_namespace, struct_default_namespace_via_attribute_with_prefix
def nsDef : Env := envOf [
  mkS c!"X1" [F c!"item" S] { rename := some c!"tt", defaultNs := some c!"ttml", namespaces := [(c!"ttml", c!"http://t"), (c!"ttm", c!"http://m")] },
  mkS c!"X2" [F c!"item" S (nsP c!"TTML")]
    { rename := some c!"tt", pfx := some c!"TTML", defaultNs := some c!"TTML", namespaces := [(c!"TTML", c!"http://t"), (c!"ttm", c!"http://m")] }]
def ttDoc : Str := c!"<tt xmlns=\"http://t\" xmlns:ttm=\"http://m\"><item>something</item></tt>"
example : serOk nsDef c!"X1" (.struct [s c!"something"]) ttDoc = true := by decide +kernel
example : both nsDef c!"X2" (.struct [s c!"something"]) ttDoc = true := by decide +kernel
-- enum_namespace, enum_attribute_namespace, enum_multi_namespaces
def nsEnum : Env := envOf [
  mkE c!"XmlStruct" [vU c!"Item" (nsP c!"ns"), vN c!"ItemWithField" S (nsP c!"ns")] (.enum 0 [])
    { rename := some c!"root", pfx := some c!"ns", namespaces := [(c!"ns", c!"http://d")] },
  mkE c!"Multi" [vU c!"Item1" (nsP c!"ns1"), vU c!"Item2" (nsP c!"ns2")] (.enum 0 [])
    { rename := some c!"root", namespaces := [(c!"ns1", c!"http://d1"), (c!"ns2", c!"http://d2")] }]
example : both nsEnum c!"XmlStruct" (.enum 0 []) c!"
    <ns:root xmlns:ns=\"http://d\">
      ns:Item
    </ns:root>
  " = true := by decide +kernel
example : both nsEnum c!"XmlStruct" (.enum 1 [s c!"Value"])
  c!"<ns:root xmlns:ns=\"http://d\"><ns:ItemWithField>Value</ns:ItemWithField></ns:root>" = true := by decide +kernel
example : both nsEnum c!"Multi" (.enum 0 []) c!"
    <root xmlns:ns1=\"http://d1\" xmlns:ns2=\"http://d2\">
      ns1:Item1
    </root>
  " = true := by decide +kernel
example : serOk nsEnum c!"Multi" (.enum 1 []) c!"
    <root xmlns:ns1=\"http://d1\" xmlns:ns2=\"http://d2\">
      ns2:Item2
    </root>
  " = true := by decide +kernel

/-! cdata.rs, option.rs, skip.rs, skip_if.rs, serializer.rs, types.rs, generic.rs -/

def cdataE : Env := envOf [mkS c!"TestStruct" [F c!"msgdata" S { cdata := true }] (rn c!"teststruct")]
example : both cdataE c!"TestStruct" (.struct [s c!"<tag>Some unescaped content</tag>"])
  c!"<teststruct><msgdata><![CDATA[<tag>Some unescaped content</tag>]]></msgdata></teststruct>" = true := by decide +kernel

-- option_struct
def optS : Env := envOf [mkS c!"Data" [F c!"item" (O (T c!"Test"))] (rn c!"data"), mkS c!"Test" [F c!"field" (T c!"SubTest")],
  mkS c!"SubTest" [F c!"content" (O S)]]
example : both optS c!"Data" (.struct [.some (.struct [.struct [.some (s c!"value")]])])
  c!"<data><item><field><content>value</content></field></item></data>" = true := by decide +kernel
example : both optS c!"Data" (.struct [.none]) c!"<data />" = true := by decide +kernel
-- option_bool_no_crash_on_bad_input
def optB : Env := envOf [mkS c!"Test" [F c!"field" (T c!"SubTest")], mkS c!"SubTest" [F c!"content" (O B) attr]]
example : (match de optB c!"Test" c!"<field><content>/<R/" with | .err _ => true | _ => false) = true := by decide +kernel
-- deserialize_without_car
def car : Env := envOf [mkS c!"Car" [F c!"color" S (rn c!"CarColor"), F c!"brand" S (rn c!"CarBrand")],
  mkS c!"Person" [F c!"car" (O (T c!"Car")) flat]]
example : deOk car c!"Person" c!"<?xml version=\"1.0\" encoding=\"utf-8\"?>
      <Person>
          <EyeColor>brown</EyeColor>
          <Age>25</Age>
          <HasHome>true</HasHome>
          <HasGarden>false</HasGarden>
      </Person>
    " (.struct [.none]) = true := by decide +kernel

-- types.rs / option.rs: one instance per shape
def data1 (t : FTy) (a : Attrs := {}) : Env := envOf [mkS c!"Data" [F c!"item" t a] (rn c!"data")]
example : both (data1 S) c!"Data" (.struct [s c!"test"]) c!"<data><item>test</item></data>" = true := by decide +kernel
example : both (data1 B) c!"Data" (.struct [.bool true]) c!"<data><item>true</item></data>" = true := by decide +kernel
example : both (data1 (I .i8)) c!"Data" (.struct [i (-12)]) c!"<data><item>-12</item></data>" = true := by decide +kernel
example : both (data1 (I .u64)) c!"Data" (.struct [i 12]) c!"<data><item>12</item></data>" = true := by decide +kernel
example : both (data1 (V S)) c!"Data" (.struct [.vec []]) c!"<data />" = true := by decide +kernel
example : both (data1 (V S)) c!"Data" (.struct [.vec [s c!"test"]]) c!"<data><item>test</item></data>" = true := by decide +kernel
example : both (data1 (O (I .i32))) c!"Data" (.struct [.some (i (-12))]) c!"<data><item>-12</item></data>" = true := by decide +kernel
example : both (data1 (O (I .i32))) c!"Data" (.struct [.none]) c!"<data />" = true := by decide +kernel
example : both (data1 (I .i16) attr) c!"Data" (.struct [i (-12)]) c!"<data item=\"-12\" />" = true := by decide +kernel
example : both (data1 (O B) attr) c!"Data" (.struct [.some (.bool true)]) c!"<data item=\"true\" />" = true := by decide +kernel
example : both (data1 (O B) attr) c!"Data" (.struct [.none]) c!"<data />" = true := by decide +kernel

-- skip.rs / skip_if.rs
def skipA : Attrs := { skipSer := true }
example : serOk (envOf [mkS c!"X" [F c!"a" S skipA, F c!"b" (T c!"Y") skipA, F c!"c" (V (I .i8)) skipA] (rn c!"base"), mkS c!"Y" []])
  c!"X" (.struct [s c!"skipped", .struct [], .vec [i 1, i 2]]) c!"<base />" = true := by decide +kernel
def sif (ident : Str) (ty : FTy) (g : Val → Bool) (attrs : Attrs := {}) : FieldDef :=
  { ident, ty, attrs, skipIf := some fun _ v => g v }
example : serOk (envOf [mkS c!"X" [sif c!"a" S (fun v => v.beq (s c!"something")), sif c!"b" B (fun v => v.beq (.bool true)),
    sif c!"c" (O S) (fun v => v.beq (.some (s c!"something")))] (rn c!"base")])
  c!"X" (.struct [s c!"something", .bool true, .some (s c!"something")]) c!"<base />" = true := by decide +kernel
example : serOk (envOf [mkS c!"X" [sif c!"a" S (fun v => v.beq (s c!"something")) attr, sif c!"b" B (fun v => v.beq (.bool true)) attr,
    sif c!"c" (O S) (fun v => v.beq (.some (s c!"something"))) attr] (rn c!"base")])
  c!"X" (.struct [s c!"something", .bool true, .some (s c!"something")]) c!"<base />" = true := by decide +kernel

-- ser_list_of_items
def serL : Env := envOf [mkS c!"X" [F c!"items" (V (T c!"SubStruct"))] (rn c!"base"),
  mkS c!"X2" [F c!"items" (V (T c!"SubStruct")) (rn c!"listField")] (rn c!"base"),
  mkS c!"X3" [F c!"items" (V (T c!"SubStruct")) flat] (rn c!"base"), mkS c!"SubStruct" [F c!"field" S] (rn c!"items")]
def two : Val := .struct [.vec [.struct [s c!"something1"], .struct [s c!"something2"]]]
example : serOk serL c!"X" two c!"<base><items><field>something1</field></items><items><field>something2</field></items></base>" = true := by decide +kernel
example : serOk serL c!"X2" two c!"<base><listField><field>something1</field></listField><listField><field>something2</field></listField></base>" = true := by decide +kernel
example : serOk serL c!"X3" two c!"<base><field>something1</field><field>something2</field></base>" = true := by decide +kernel

-- generic.rs (the instance `Base<Generic>`)
def gen : Env := envOf [mkS c!"Base" [F c!"background" (T c!"Generic")] (rn c!"base"), mkS c!"Generic" [F c!"color" S attr]]
example : both gen c!"Base" (.struct [.struct [s c!"blue"]]) c!"<base><background color=\"blue\" /></base>" = true := by decide +kernel

end Yaserde.Tests
