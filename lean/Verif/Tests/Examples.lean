import Verif.Tests.Repo
/-
The example programs of `/repo/examples/src` with their documents (`/repo/examples/tests/data`).
-/
set_option maxRecDepth 100000
set_option autoImplicit false

namespace Yaserde.Tests

def f32 : FTy := .simple .f32
def at' (n : Str) (p : Option Str := none) : Attrs := { isAttr := true, rename := some n, pfx := p }

/-- As `lib`; the floats that occur in the documents stand for their hundredfold. -/
def exLib : Lib :=
  { lib with parseF32 := fun s =>
      if s = c!"60.75" then .ok 6075 else if s = c!"0.0" then .ok 0 else if s = c!"1.0" then .ok 100
      else (parseInt .u64 s).map fun n => n.toNat * 100 }

def exOk (env : Env) (fuel : Nat) (p : Str) (s : Str) (v : Val) : Bool :=
  match deFromStr exLib env fuel [p] s with | .ok x => x.beq v | _ => false

/-! `bbigras_namespace.rs` -/

def bbNs : NsMap := [(c!"html", c!"http://www.w3.org/TR/REC-html40"), (c!"o", c!"urn:schemas-microsoft-com:office:office"),
  (c!"ss", c!"urn:schemas-microsoft-com:office:spreadsheet"), (c!"x", c!"urn:schemas-microsoft-com:office:excel")]
def bbA : Attrs := { pfx := some c!"ss", namespaces := bbNs }
def ss (n : Str) : Attrs := { rename := some n, pfx := some c!"ss" }
def bb : Env := envOf [
  mkS c!"Workbook" [F c!"worksheet" (T c!"Worksheet") (ss c!"Worksheet")] bbA,
  mkS c!"Worksheet" [F c!"table" (T c!"Table") (ss c!"Table"), F c!"ws_name" S (at' c!"Name" (some c!"ss"))] bbA,
  mkS c!"Table" [F c!"expanded_column_count" (I .u32) (at' c!"ExpandedColumnCount" (some c!"ss")),
    F c!"expanded_row_count" (I .u32) (at' c!"ExpandedRowCount" (some c!"ss")),
    F c!"full_columns" (I .u32) (at' c!"FullColumns" (some c!"x")),
    F c!"full_rows" (I .u32) (at' c!"FullRows" (some c!"x")),
    F c!"style_id" S (at' c!"StyleID" (some c!"ss")),
    F c!"default_column_width" f32 (at' c!"DefaultColumnWidth" (some c!"ss")),
    F c!"default_column_height" f32 (at' c!"DefaultRowHeight" (some c!"ss")),
    F c!"rows" (V (T c!"Row")) (ss c!"Row")] bbA,
  mkS c!"Row" [F c!"auto_fit_height" f32 (at' c!"AutoFitHeight" (some c!"ss")), F c!"height" f32 (at' c!"Height" (some c!"ss"))] bbA]
example : exOk bb 60 c!"Workbook" c!"<?xml version=\"1.0\"?>
<?mso-application progid=\"Excel.Sheet\"?>
<Workbook xmlns=\"urn:schemas-microsoft-com:office:spreadsheet\" xmlns:html=\"http://www.w3.org/TR/REC-html40\" xmlns:o=\"urn:schemas-microsoft-com:office:office\" xmlns:ss=\"urn:schemas-microsoft-com:office:spreadsheet\" xmlns:x=\"urn:schemas-microsoft-com:office:excel\">
\t<Worksheet ss:Name=\"some_name\">
\t\t<Table ss:DefaultColumnWidth=\"60.75\" ss:DefaultRowHeight=\"15\" ss:ExpandedColumnCount=\"11\" ss:ExpandedRowCount=\"195\" ss:StyleID=\"s64\" x:FullColumns=\"1\" x:FullRows=\"1\">
\t\t\t<Row ss:AutoFitHeight=\"0\" ss:Height=\"33\"/>
\t\t</Table>
\t</Worksheet>
</Workbook>
"
  (.struct [.struct [.struct [i 11, i 195, i 1, i 1, s c!"s64", .f32 6075, .f32 1500, .vec [.struct [.f32 0, .f32 3300]]],
    s c!"some_name"]]) = true := by decide +kernel

/-! `ln_dom.rs` -/

def ln : Env := envOf [
  mkS c!"Level" [F c!"last_modified" (I .u64) attr, F c!"named" S (at' c!"name"), F c!"timeline" (T c!"Timeline")] (rn c!"DOMSymbolItem"),
  mkS c!"Timeline" [F c!"timeline" (T c!"DOMTimeline") (rn c!"DOMTimeline")],
  mkS c!"DOMTimeline" [F c!"named" S (at' c!"name"), F c!"current_frame" (I .u64) attr, F c!"guides" (I .u64) attr, F c!"layers" (T c!"Layers")],
  mkS c!"Layers" [F c!"dom_layer" (V (T c!"DOMLayer")) (rn c!"DOMLayer")],
  mkS c!"DOMLayer" [F c!"named" S (at' c!"name"), F c!"name2" S attr]]
example : exOk ln 60 c!"Level" c!"<DOMSymbolItem name=\"dagger\" last_modified=\"1414141442\">
  <timeline>
    <DOMTimeline name=\"dagger timeline name\" current_frame=\"7\" guides=\"11\">
      <layers>
        <DOMLayer name=\"Layer 2\" name2=\"Lalayer 2\">
        </DOMLayer>
        <DOMLayer name=\"Layer 1\" name2=\"Lalayer 1\">
        </DOMLayer>
      </layers>
    </DOMTimeline>
  </timeline>
</DOMSymbolItem>
"
  (.struct [i 1414141442, s c!"dagger", .struct [.struct [s c!"dagger timeline name", i 7, i 11,
    .struct [.vec [.struct [s c!"Layer 2", s c!"Lalayer 2"], .struct [s c!"Layer 1", s c!"Lalayer 1"]]]]]]) = true := by decide +kernel

/-! `svd.rs`: indented output -/

def svdF (l : List Str) : List FieldDef := l.map fun n => F n S
def svd : Env := envOf [
  mkS c!"CpuDef" (svdF [c!"name", c!"revision", c!"endian"] ++ [F c!"mpupresent" B, F c!"fpupresent" B, F c!"vendorsystickconfig" B]),
  mkS c!"Field" (svdF [c!"name", c!"description", c!"bitrange", c!"access"]),
  mkS c!"Register" (svdF [c!"name", c!"description", c!"addressoffset"] ++ [F c!"size" (I .u8)] ++ svdF [c!"access", c!"resetvalue", c!"resetmask"]
    ++ [F c!"fields" (V (T c!"Field"))]),
  mkS c!"Peripheral" (svdF [c!"name", c!"version", c!"description", c!"groupname", c!"baseaddress"] ++ [F c!"size" (I .u8)] ++ svdF [c!"access"]
    ++ [F c!"registers" (V (T c!"Register"))]),
  mkS c!"DevAttrs" (svdF [c!"vendor", c!"vendorid", c!"name", c!"series", c!"version", c!"description", c!"licensetext"]
    ++ [F c!"cpu" (T c!"CpuDef"), F c!"addressunitbits" (I .u8), F c!"width" (I .u8), F c!"size" (I .u8)]
    ++ svdF [c!"access", c!"resetvalue", c!"resetmask"] ++ [F c!"peripherals" (V (T c!"Peripheral"))]),
  mkS c!"Device" [F c!"schemaversion" S attr, F c!"xmlns" S attr, F c!"xsnonamespaceschemalocation" S attr,
    F c!"devattributes" (T c!"DevAttrs")] (rn c!"device")]
def svdReg : Val := .struct [s c!"PRCMD", s c!"This command register (PRCMD) is to protect the registers that may have a significant influence on the application system (PSC, PSM) from an inadvertent write access, so that the system does not stop in case of a program hang-up.",
  s c!"0xFFFFF1FC", i 8, s c!"read-write", s c!"0x0000", s c!"0xFFFF", .vec []]
def svdPer : Val := .struct [s c!"Specific Registers", s c!"1.0", s c!"Specific Registers", s c!"MCU", s c!"0xFFFFF1FC", i 16, s c!"read-write", .vec [svdReg]]
def svdCpu : Val := .struct [s c!"V850", s c!"r1", s c!"LE", .bool false, .bool false, .bool false]
def svdDev : Val := .struct [s c!"foo", s c!"http://www.w3.org/2001/XMLSchema-instance", s c!"CMSIS-SVD.xsd",
  .struct [s c!"Renesas", s c!"Renesas", s c!"V850", s c!"E1/E2/CA2", s c!"1.2", s c!"NEC/Renesas V850 automotive grade ICs", s c!"GPLv3",
    svdCpu, i 8, i 32, i 32, s c!"read-write", s c!"0x00000000", s c!"0xFFFFFFFF", .vec [svdPer]]]
example : (match toStringWithConfig lib svd { performIndent := true } [c!"Device"] svdDev with
    | .ok t => t == c!"<?xml version=\"1.0\" encoding=\"utf-8\"?>
<device schemaversion=\"foo\" xmlns=\"http://www.w3.org/2001/XMLSchema-instance\" xsnonamespaceschemalocation=\"CMSIS-SVD.xsd\">
  <devattributes>
    <vendor>Renesas</vendor>
    <vendorid>Renesas</vendorid>
    <name>V850</name>
    <series>E1/E2/CA2</series>
    <version>1.2</version>
    <description>NEC/Renesas V850 automotive grade ICs</description>
    <licensetext>GPLv3</licensetext>
    <cpu>
      <name>V850</name>
      <revision>r1</revision>
      <endian>LE</endian>
      <mpupresent>false</mpupresent>
      <fpupresent>false</fpupresent>
      <vendorsystickconfig>false</vendorsystickconfig>
    </cpu>
    <addressunitbits>8</addressunitbits>
    <width>32</width>
    <size>32</size>
    <access>read-write</access>
    <resetvalue>0x00000000</resetvalue>
    <resetmask>0xFFFFFFFF</resetmask>
    <peripherals>
      <name>Specific Registers</name>
      <version>1.0</version>
      <description>Specific Registers</description>
      <groupname>MCU</groupname>
      <baseaddress>0xFFFFF1FC</baseaddress>
      <size>16</size>
      <access>read-write</access>
      <registers>
        <name>PRCMD</name>
        <description>This command register (PRCMD) is to protect the registers that may have a significant influence on the application system (PSC, PSM) from an inadvertent write access, so that the system does not stop in case of a program hang-up.</description>
        <addressoffset>0xFFFFF1FC</addressoffset>
        <size>8</size>
        <access>read-write</access>
        <resetvalue>0x0000</resetvalue>
        <resetmask>0xFFFF</resetmask>
      </registers>
    </peripherals>
  </devattributes>
</device>"
    | _ => false) = true := by decide +kernel

/-! `same_element_different_namespaces.rs` -/

def ext : Env := envOf [mkS c!"ErrorType" [F c!"reason_code" (O (I .u16)) { rename := some c!"reasonCode", pfx := some c!"myns" },
    F c!"ext_reason_code" (O (I .u16)) { rename := some c!"reasonCode", pfx := some c!"ext" }]
  { pfx := some c!"myns", namespaces := [(c!"ext", c!"http://my_namespace_2/"), (c!"myns", c!"http://my_namespace_1/")] }]
example : deOk ext c!"ErrorType" c!"
    <error_type xmlns=\"http://my_namespace_1/\" xmlns:ext=\"http://my_namespace_2/\">
      <reasonCode>12</reasonCode>
      <ext:reasonCode>32</ext:reasonCode>
    </error_type>
  " (.struct [.some (i 12), .some (i 32)]) = true := by decide +kernel

/-! `generic.rs`: the instances `SoapEnvelope<Meters>` and `SoapEnvelope<SoapPlay>` -/

def soapNs : NsMap := [(c!"s", c!"http://schemas.xmlsoap.org/soap/envelope/")]
def avNs : NsMap := [(c!"u", c!"urn:schemas-upnp-org:service:AVTransport:1")]
def soapD (body : FTy) : Path × TypeDef :=
  mkS c!"SoapEnvelope" [F c!"encoding_style" S (at' c!"encodingStyle" (some c!"s")), F c!"tnsattr" (O S) (at' c!"u" (some c!"xmlns")),
    F c!"urnattr" (O S) (at' c!"urn" (some c!"xmlns")), F c!"xsiattr" (O S) (at' c!"xsi" (some c!"xmlns")),
    F c!"header" (O (T c!"Header")) { rename := some c!"Header", pfx := some c!"s" },
    F c!"body" body { rename := some c!"Body", pfx := some c!"s" }]
    { rename := some c!"Envelope", pfx := some c!"s", namespaces := soapNs }
def dflt' (f : FieldDef) (v : Val) : FieldDef := { f with dflt := some ⟨v, fun x => !x.beq v⟩ }
def soap (body : FTy) : Env := envOf [soapD body, mkS c!"Header" [],
  ([c!"Meters"], .prim { name := c!"Meters", toStr := showS lib, fromStr := parseS lib (.int .i32) }),
  mkS c!"SoapPlay" [dflt' (F c!"body" (T c!"Play") { rename := some c!"Play", pfx := some c!"u" }) (.struct [.struct [i 0, i 0]])] { namespaces := avNs },
  mkS c!"Play" [dflt' (F c!"parameters" (T c!"Play2") flat) (.struct [i 0, i 0])] { rename := some c!"Play", pfx := some c!"u" },
  mkS c!"Play2" [dflt' (F c!"instance_id" (I .i32) (rn c!"InstanceID")) (i 0), dflt' (F c!"speed" (I .i32) (rn c!"Speed")) (i 0)]
    { rename := some c!"Play", pfx := some c!"u", namespaces := avNs }]
def tripOk (env : Env) (p : Str) (v : Val) : Bool :=
  match toString lib env [p] v with | .ok t => deOk env p t v | _ => false
example : tripOk (soap (T c!"Meters")) c!"SoapEnvelope" (.struct [s [], .none, .none, .none, .none, i 10]) = true := by decide +kernel
example : tripOk (soap (T c!"SoapPlay")) c!"SoapEnvelope"
  (.struct [s [], .none, .none, .none, .none, .struct [.struct [.struct [i 20, i 1]]]]) = true := by decide +kernel

/-! the remaining tests of `/repo/yaserde/tests` -/

-- de_name_issue_21
example : both (envOf [mkS c!"Book" [F c!"name" S] (rn c!"book")]) c!"Book" (.struct [s c!"Little prince"])
  c!"<book><name>Little prince</name></book>" = true := by decide +kernel
-- struct_explicit_default_namespace
def ttA : Attrs :=
  { rename := some c!"tt", defaultNs := some c!"ttml",
    namespaces := [(c!"ttm", c!"http://www.w3.org/ns/ttml#metadata"), (c!"ttml", c!"http://www.w3.org/ns/ttml")] }
example : serOk (envOf [mkS c!"XmlStruct" [F c!"item" S] ttA]) c!"XmlStruct"
  (.struct [s c!"something"])
  c!"<tt xmlns=\"http://www.w3.org/ns/ttml\" xmlns:ttm=\"http://www.w3.org/ns/ttml#metadata\"><item>something</item></tt>" = true := by decide +kernel

end Yaserde.Tests
