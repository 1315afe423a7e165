{
 "claims": [
  {
   "property": "C01",
   "status": "proved",
   "theorems": [
    "CLF.C01_roundtrip",
    "CLF.C01_fullscale",
    "CLF.C01_float",
    "CLF.C01_scales"
   ],
   "note": ""
  },
  {
   "property": "C02",
   "status": "proved",
   "theorems": [
    "CLF.C02_range",
    "CLF.C02_values",
    "CLF.C02_idempotent",
    "CLF.C02_monotone"
   ],
   "note": ""
  },
  {
   "property": "C03",
   "status": "proved",
   "theorems": [
    "CLF.C03_admits",
    "CLF.C03_unknown",
    "CLF.C03_disabled",
    "CLF.C03_rejects"
   ],
   "note": ""
  },
  {
   "property": "C04",
   "status": "partial",
   "theorems": [
    "CLF.C04_false",
    "CLF.C04_partial",
    "CLF.C04_reference_false"
   ],
   "note": "False: C04_false is a strict read that succeeds with an unknown and a disabled element inside a Group. C04_partial characterises exactly what a strict read checks (top level, and the dynamic parameters of top-level nodes)."
  },
  {
   "property": "C05",
   "status": "proved",
   "theorems": [
    "CLF.C05_order",
    "CLF.C05_elements",
    "CLF.C05_kind",
    "CLF.C05_mask"
   ],
   "note": "Order, kinds, kept comment elements and independence of the feature mask (up to dynamic parameters)."
  },
  {
   "property": "C06",
   "status": "proved",
   "theorems": [
    "CLF.C06_range_clamps"
   ],
   "note": ""
  },
  {
   "property": "C07",
   "status": "proved",
   "theorems": [
    "CLF.C07_affine",
    "CLF.C07_affine_clamped",
    "CLF.C07_map",
    "CLF.C07_clamp_inactive"
   ],
   "note": ""
  },
  {
   "property": "C08",
   "status": "proved",
   "theorems": [
    "CLF.C08_free_range",
    "CLF.C08_roundtrip"
   ],
   "note": ""
  },
  {
   "property": "C09",
   "status": "proved",
   "theorems": [
    "CLF.C09_swap_inverts",
    "CLF.C09_swap_inverts_clamped"
   ],
   "note": ""
  },
  {
   "property": "C10",
   "status": "proved",
   "theorems": [
    "CLF.C10_linear",
    "CLF.C10_affine",
    "CLF.C10_single"
   ],
   "note": ""
  },
  {
   "property": "C11",
   "status": "proved",
   "theorems": [
    "CLF.C11_composition",
    "CLF.C11_composition_affine"
   ],
   "note": ""
  },
  {
   "property": "C12",
   "status": "proved",
   "theorems": [
    "CLF.C12_total_bounded",
    "CLF.C12_nonfinite"
   ],
   "note": ""
  },
  {
   "property": "C13",
   "status": "proved",
   "theorems": [
    "CLF.C13_saturates",
    "CLF.C13_interpolates",
    "CLF.C13_knots",
    "CLF.C13_monotone"
   ],
   "note": ""
  },
  {
   "property": "C14",
   "status": "proved",
   "theorems": [
    "CLF.C14_sample",
    "CLF.C14_saturates",
    "CLF.C14_between",
    "CLF.C14_node"
   ],
   "note": ""
  },
  {
   "property": "C15",
   "status": "proved",
   "theorems": [
    "CLF.C15_bounded",
    "CLF.C15_monotone"
   ],
   "note": ""
  },
  {
   "property": "C16",
   "status": "proved",
   "theorems": [
    "CLF.C16_samples",
    "CLF.C16_identity"
   ],
   "note": ""
  },
  {
   "property": "C17",
   "status": "proved",
   "theorems": [
    "CLF.C17_nonfinite"
   ],
   "note": ""
  },
  {
   "property": "C18",
   "status": "proved",
   "theorems": [
    "CLF.C18_exact",
    "CLF.C18_nonfinite"
   ],
   "note": "The pattern 32768 (minus zero) is excluded: the sign of zero is not represented in the lookup model, -0.0 is looked up like +0.0."
  },
  {
   "property": "C19",
   "status": "proved",
   "theorems": [
    "CLF.C19_adjacent",
    "CLF.C19_bounded",
    "CLF.C19_node"
   ],
   "note": ""
  },
  {
   "property": "C20",
   "status": "proved",
   "theorems": [
    "CLF.C20_identity"
   ],
   "note": ""
  },
  {
   "property": "C21",
   "status": "proved",
   "theorems": [
    "CLF.C21_lattice"
   ],
   "note": ""
  },
  {
   "property": "C22",
   "status": "proved",
   "theorems": [
    "CLF.C22_bounded",
    "CLF.C22_node"
   ],
   "note": ""
  },
  {
   "property": "C23",
   "status": "proved",
   "theorems": [
    "CLF.C23_affine",
    "CLF.C23_sampled",
    "CLF.C23_identity"
   ],
   "note": ""
  },
  {
   "property": "C24",
   "status": "partial",
   "theorems": [
    "CLF.C24_false",
    "CLF.C24_cube_partial"
   ],
   "note": "False as stated for unequal sides: C24_false refutes it for every such size; C24_cube_partial covers cubes."
  },
  {
   "property": "C25",
   "status": "proved",
   "theorems": [
    "CLF.C25_ties",
    "CLF.C25_edges"
   ],
   "note": ""
  },
  {
   "property": "C26",
   "status": "proved",
   "theorems": [
    "CLF.C26_range",
    "CLF.C26_succeeds"
   ],
   "note": ""
  },
  {
   "property": "C27",
   "status": "proved",
   "theorems": [
    "CLF.C27_neutral"
   ],
   "note": ""
  },
  {
   "property": "C28",
   "status": "proved",
   "theorems": [
    "CLF.C28_inverse"
   ],
   "note": ""
  },
  {
   "property": "C29",
   "status": "partial",
   "theorems": [
    "CLF.C29_false",
    "CLF.C29_inrange_partial"
   ],
   "note": "False as stated: the RevNoClamp styles clamp. The _false theorem refutes it; the _partial theorem gives the range on which the inverse holds."
  },
  {
   "property": "C30",
   "status": "proved",
   "theorems": [
    "CLF.C30_inverse",
    "CLF.C30_negative",
    "CLF.C30_rows",
    "CLF.C30_letters"
   ],
   "note": ""
  },
  {
   "property": "C31",
   "status": "partial",
   "theorems": [
    "CLF.C31_false",
    "CLF.C31_sameSide_partial",
    "CLF.C31_matched"
   ],
   "note": "False as stated: moncurveRev compares with the wrong pivot. The _false theorem refutes it; the _partial theorem covers the case offset = gamma - 1, where both pivots agree."
  },
  {
   "property": "C32",
   "status": "proved",
   "theorems": [
    "CLF.C32_antilog_log",
    "CLF.C32_log_antilog"
   ],
   "note": ""
  },
  {
   "property": "C33",
   "status": "proved",
   "theorems": [
    "CLF.C33_lin_log_lin",
    "CLF.C33_log_lin_log"
   ],
   "note": ""
  },
  {
   "property": "C34",
   "status": "partial",
   "theorems": [
    "CLF.C34_extra_partial",
    "CLF.C34_false"
   ],
   "note": "False for ExposureContrast (C34_false: extra channels are copied from the first pixel). C34_extra_partial covers every other node and trees of them."
  },
  {
   "property": "C35",
   "status": "partial",
   "theorems": [
    "CLF.C35_cubic_false",
    "CLF.C35_contrast_false",
    "CLF.C35_linear_partial",
    "CLF.C35_contrast_partial"
   ],
   "note": "False: C35_cubic_false and C35_contrast_false show that LUT1D cubic and ExposureContrast video/log raise for every input containing a pixel. The _partial theorems show the remaining styles of these two nodes always succeed."
  },
  {
   "property": "C36",
   "status": "partial",
   "theorems": [
    "CLF.C36_independent_partial",
    "CLF.C36_false"
   ],
   "note": "False for ExposureContrast with more than three channels (C36_false). C36_independent_partial covers every other node tree."
  },
  {
   "property": "C37",
   "status": "proved",
   "theorems": [
    "CLF.C37_empty",
    "CLF.C37_append",
    "CLF.C37_single"
   ],
   "note": ""
  },
  {
   "property": "C38",
   "status": "proved",
   "theorems": [
    "CLF.C38_caller",
    "CLF.C38_result",
    "CLF.C38_again",
    "CLF.C38_node"
   ],
   "note": ""
  },
  {
   "property": "C39",
   "status": "proved",
   "theorems": [
    "CLF.C39_conversion",
    "CLF.C39_range",
    "CLF.C39_disabled",
    "CLF.C39_first",
    "CLF.C39_last"
   ],
   "note": ""
  },
  {
   "property": "C40",
   "status": "partial",
   "theorems": [
    "CLF.C40_false",
    "CLF.C40_false_every",
    "CLF.C40_partial"
   ],
   "note": "False: C40_false is a document, C40_false_every shows it for every node and every text of the attribute. C40_partial: nodes without the attribute, or the Autodesk features disabled."
  },
  {
   "property": "C41",
   "status": "proved",
   "theorems": [
    "CLF.C41_inline",
    "CLF.C41_group"
   ],
   "note": ""
  },
  {
   "property": "C42",
   "status": "proved",
   "theorems": [
    "CLF.C42_reference",
    "CLF.C42_missing",
    "CLF.C42_missing_reads"
   ],
   "note": ""
  },
  {
   "property": "C43",
   "status": "partial",
   "theorems": [
    "CLF.C43_partial",
    "CLF.C43_false"
   ],
   "note": "False: C43_false has a Reference inside a Group that stays a reference in the self-contained file. C43_partial: lists whose top-level references resolve to reference-free nodes."
  },
  {
   "property": "C44",
   "status": "proved",
   "theorems": [
    "CLF.C44_length",
    "CLF.C44_node"
   ],
   "note": ""
  },
  {
   "property": "C45",
   "status": "partial",
   "theorems": [
    "CLF.C45_false",
    "CLF.C45_exact_partial",
    "CLF.C45_single_partial"
   ],
   "note": "False with the float32 store for values that are not float32 (C45_false). Proved without the store for all values, and with it for float32 values (bound 1e-9 instead of 0.5e-9)."
  },
  {
   "property": "C46",
   "status": "proved",
   "theorems": [
    "CLF.C46_bits",
    "CLF.C46_writes"
   ],
   "note": "All six encodings and rawHalfs; written and read back values are rounded to the format and stay when they are floats of the format."
  },
  {
   "property": "C47",
   "status": "proved",
   "theorems": [
    "CLF.C47_value",
    "CLF.C47_int_float_int",
    "CLF.C47_float_int_float",
    "CLF.C47_float_hex_float",
    "CLF.C47_hex_int",
    "CLF.C47_hex_case"
   ],
   "note": "Bit casts against an independent IEEE pattern specification, integers and hex text."
  },
  {
   "property": "C48",
   "status": "proved",
   "theorems": [
    "CLF.C48_rows",
    "CLF.C48_lost",
    "CLF.C48_writes"
   ],
   "note": "Every complete row comes back in order; exactly the remainder is lost otherwise."
  },
  {
   "property": "C49",
   "status": "partial",
   "theorems": [
    "CLF.C49_false",
    "CLF.C49_empty_false",
    "CLF.C49_partial",
    "CLF.C49_changed_partial"
   ],
   "note": "False: outputs are truncated, the empty map cannot be read back. Proved for twelve-digit inputs and integer outputs, and what all other maps become."
  },
  {
   "property": "C50",
   "status": "partial",
   "theorems": [
    "CLF.C50_partial",
    "CLF.C50_file_partial",
    "CLF.C50_false",
    "CLF.C50_reread_false"
   ],
   "note": "False: C50_false (a node comment is lost) and C50_reread_false (a written list that cannot be read). C50_partial and C50_file_partial: every list meeting Spec.StorableList comes back with the same structure and the same values up to the printed digits."
  },
  {
   "property": "C51",
   "status": "partial",
   "theorems": [
    "CLF.C51_false",
    "CLF.C51_partial"
   ],
   "note": "False: C51_false reads the same document with different errors. C51_partial: successful reads agree for any choice of compressed files."
  },
  {
   "property": "C52",
   "status": "proved",
   "theorems": [
    "CLF.C52_order",
    "CLF.C52_shipped",
    "CLF.C52_unsupported",
    "CLF.C52_noExtension",
    "CLF.C52_case",
    "CLF.C52_read",
    "CLF.C52_write"
   ],
   "note": "All registration orders, paths and arguments; the four shipped formats."
  },
  {
   "property": "C53",
   "status": "partial",
   "theorems": [
    "CLF.C53_rounded_partial",
    "CLF.C53_exact_partial",
    "CLF.C53_false"
   ],
   "note": "false as stated: the range is printed with six decimals and samples with twelve digits (witness); proved: everything comes back as its text is read, exactly when representable, and the nodes read follow the polyline through the samples"
  },
  {
   "property": "C54",
   "status": "partial",
   "theorems": [
    "CLF.C54_table_partial",
    "CLF.C54_lattice_partial",
    "CLF.C54_false"
   ],
   "note": "false as stated for samples whose texts are not exact (witness); proved: table order for every size, and process-level lattice exactness for cubes with exact texts"
  },
  {
   "property": "C55",
   "status": "partial",
   "theorems": [
    "CLF.C55_order",
    "CLF.C55_written_partial",
    "CLF.C55_lattice_partial",
    "CLF.C55_false",
    "CLF.C55_unequal_sides"
   ],
   "note": "Order conversion proved for every cube; the file round trip holds up to the six decimals of the text and exactly for six-decimal values. False in general: values with more decimals, cubes with unequal sides."
  },
  {
   "property": "C56",
   "status": "proved",
   "theorems": [
    "CLF.C56_inverse",
    "CLF.C56_curve"
   ],
   "note": "One or three columns (two-column tables are addressed wrongly by the lookup, see C76), at least two rows, exact arithmetic. C56_inverse: both compositions are the identity; C56_curve: value by value."
  },
  {
   "property": "C57",
   "status": "partial",
   "theorems": [
    "CLF.C57_actual_partial",
    "CLF.C57_unit_partial",
    "CLF.C57_false"
   ],
   "note": "False for every input range other than [0,1] (C57_false). C57_actual_partial says what is returned for any range; C57_unit_partial is the property on [0,1]. The half value minus zero is left out."
  },
  {
   "property": "C58",
   "status": "partial",
   "theorems": [
    "CLF.C58_grid",
    "CLF.C58_1d",
    "CLF.C58_3d_partial",
    "CLF.C58_3d_false"
   ],
   "note": "1D proved for all lists and ranges. 3D is false when the first and last resolution differ (C58_3d_false: always IndexError); the partial theorem covers equal first and last resolution."
  },
  {
   "property": "C59",
   "status": "partial",
   "theorems": [
    "CLF.C59_inverse_forward_partial",
    "CLF.C59_forward_inverse_partial",
    "CLF.C59_below",
    "CLF.C59_false"
   ],
   "note": "False below the smallest normal float32 for log2 (C59_false); C59_below says what happens there. The partial theorems cover linear shapers on their range and log2 shapers whose values are at least that number."
  },
  {
   "property": "C60",
   "status": "partial",
   "theorems": [
    "CLF.C60_actual_partial",
    "CLF.C60_same_partial",
    "CLF.C60_false"
   ],
   "note": "False for different shapers (C60_false); the partial theorems say what the output samples are, and that they decode when both shapers agree."
  },
  {
   "property": "C61",
   "status": "partial",
   "theorems": [
    "CLF.C61_inverse_partial",
    "CLF.C61_fixed_partial",
    "CLF.C61_false"
   ],
   "note": "false: C61_false; partial: the stage is the inverse of the sampled shaper curve, and equals the shaper exactly at its fixed points"
  },
  {
   "property": "C62",
   "status": "partial",
   "theorems": [
    "CLF.C62_actual_partial",
    "CLF.C62_partial",
    "CLF.C62_single",
    "CLF.C62_false"
   ],
   "note": "false: C62_false; partial for tables with equal columns and single-component tables; C62_actual_partial says what is written"
  },
  {
   "property": "C63",
   "status": "partial",
   "theorems": [
    "CLF.C63_colour_partial",
    "CLF.C63_kept_partial",
    "CLF.C63_rgb_raises",
    "CLF.C63_offset_lost",
    "CLF.C63_alpha_lost"
   ],
   "note": "False as stated. C63_colour_partial: matrices passing the size test with no alpha share in blue map RGB exactly (with offset). C63_kept_partial: the others map RGBA without offset. Witnesses: C63_rgb_raises, C63_offset_lost, C63_alpha_lost."
  },
  {
   "property": "C64",
   "status": "proved",
   "theorems": [
    "CLF.C64_order",
    "CLF.C64_nesting",
    "CLF.C64_colours"
   ],
   "note": "Order, independence of nesting, and colours as the composition of the leaves."
  },
  {
   "property": "C65",
   "status": "proved",
   "theorems": [
    "CLF.C65_parallel",
    "CLF.C65_unfinished",
    "CLF.C65_finishes",
    "CLF.C65_whole",
    "CLF.C65_pixel"
   ],
   "note": "The pool of worker processes is modelled as a state machine; the result is the same for every worker count and every schedule in which the rows get finished, and every fair schedule finishes them. Also: filtering pixel by pixel, row by row or the whole image at once agree."
  },
  {
   "property": "C66",
   "status": "partial",
   "theorems": [
    "CLF.C66_row5_partial",
    "CLF.C66_low",
    "CLF.C66_false"
   ],
   "note": "False as stated: with one process only row 5 is filtered, the other rows are written as zeros, and images below six rows raise. Proved: the exact result, for every image."
  },
  {
   "property": "C67",
   "status": "partial",
   "theorems": [
    "CLF.C67_partial",
    "CLF.C67_other",
    "CLF.C67_false",
    "CLF.C67_wide"
   ],
   "note": "False as stated: proved for 10, 12 and 16 bits; for every other width below 16 the words are not shifted back, and above 16 reading raises."
  },
  {
   "property": "C68",
   "status": "proved",
   "theorems": [
    "CLF.C68_order",
    "CLF.C68_getProcess",
    "CLF.C68_getProcess_none",
    "CLF.C68_attributes",
    "CLF.C68_depths",
    "CLF.C68_list_attributes"
   ],
   "note": "Every call sequence: order, first match by name, last written attribute, depths of first and last node."
  },
  {
   "property": "C69",
   "status": "partial",
   "theorems": [
    "CLF.C69_false",
    "CLF.C69_reuse_partial"
   ],
   "note": "False as stated: C69_false shows every call lengthens the list; C69_reuse_partial shows what still holds."
  },
  {
   "property": "C70",
   "status": "proved",
   "theorems": [
    "CLF.C70_name",
    "CLF.C70_alike"
   ],
   "note": ""
  },
  {
   "property": "C71",
   "status": "proved",
   "theorems": [
    "CLF.C71_rejected",
    "CLF.C71_unaffected"
   ],
   "note": ""
  },
  {
   "property": "C72",
   "status": "proved",
   "theorems": [
    "CLF.C72_cycle",
    "CLF.C72_limit"
   ],
   "note": "For every set of files each of which refers to a member of the set; fuel arbitrary."
  },
  {
   "property": "C73",
   "status": "partial",
   "theorems": [
    "CLF.C73_false",
    "CLF.C73_partial"
   ],
   "note": "False as stated: no image of one row is ever written. Proved for two or more rows with worker processes."
  },
  {
   "property": "C74",
   "status": "partial",
   "theorems": [
    "CLF.C74_false",
    "CLF.C74_finite_partial"
   ],
   "note": "False as stated: C74_false shows an infinite entry always comes back as NaN; C74_finite_partial covers finite entries."
  },
  {
   "property": "C75",
   "status": "partial",
   "theorems": [
    "CLF.C75_resampled",
    "CLF.C75_curve_partial",
    "CLF.C75_two_partial",
    "CLF.C75_false"
   ],
   "note": "Holds for preluts of three or more entries with equal counts and ranges; false for two-entry preluts with outputs other than 0 and 1 (outputs ignored) and for unequal entry counts (IndexError)."
  },
  {
   "property": "C76",
   "status": "partial",
   "theorems": [
    "CLF.C76_actual_partial",
    "CLF.C76_false"
   ],
   "note": "False as stated: C76_false refutes it for every row count; C76_actual_partial says what is returned instead."
  },
  {
   "property": "C77",
   "status": "proved",
   "theorems": [
    "CLF.C77_lower",
    "CLF.C77_upper",
    "CLF.C77_default"
   ],
   "note": "One-sided bounds on either side and defaultRange."
  },
  {
   "property": "C78",
   "status": "proved",
   "theorems": [
    "CLF.C78_wide"
   ],
   "note": "Every matrix with m >= n, m != n+1."
  },
  {
   "property": "C79",
   "status": "proved",
   "theorems": [
    "CLF.C79_cube",
    "CLF.C79_unshaped",
    "CLF.C79_input"
   ],
   "note": "Cube entries and input samples for every list, resolution and shaper pair for which the evaluation succeeds."
  },
  {
   "property": "C80",
   "status": "proved",
   "theorems": [
    "CLF.C80_exact",
    "CLF.C80_between_inexact"
   ],
   "note": "exact at the samples of the resampled table, for every increasing table; witness that it is inexact between them"
  },
  {
   "property": "C81",
   "status": "proved",
   "theorems": [
    "CLF.C81_clf"
   ],
   "note": ""
  },
  {
   "property": "C82",
   "status": "proved",
   "theorems": [
    "CLF.C82_ctl"
   ],
   "note": ""
  },
  {
   "property": "C83",
   "status": "partial",
   "theorems": [
    "CLF.C83_spi1d_partial",
    "CLF.C83_csp1d_partial",
    "CLF.C83_csp3d_partial",
    "CLF.C83_spi3d_actual_partial",
    "CLF.C83_spi3d_partial",
    "CLF.C83_false"
   ],
   "note": "False for .spi3d over a range other than the unit range (C83_false). Partial: .spi1d, 1D and 3D .csp, .spi3d over [0,1]; samples whose text holds their value; C83_spi3d_actual_partial says what comes back for other ranges."
  },
  {
   "property": "C84",
   "status": "partial",
   "theorems": [
    "CLF.C84_rounded_partial",
    "CLF.C84_curve_partial",
    "CLF.C84_false",
    "CLF.C84_two_components"
   ],
   "note": "False: six decimals (C84_false), two components are read as zeros (C84_two_components). Partial: rounded samples for one and three components, exact polyline for six-decimal samples."
  },
  {
   "property": "C85",
   "status": "partial",
   "theorems": [
    "CLF.C85_file_partial",
    "CLF.C85_log_partial",
    "CLF.C85_false"
   ],
   "note": "False for matrices and groups (C85_false); proved for strictly increasing SPI 1D files (index map inverse) and base 2/10 logs (up to the log floor)."
  },
  {
   "property": "C86",
   "status": "proved",
   "theorems": [
    "CLF.C86_empty"
   ],
   "note": "All five storage formats; each result is rounded to float32, once or by way of float64, as the code does."
  },
  {
   "property": "C87",
   "status": "partial",
   "theorems": [
    "CLF.C87_loses",
    "CLF.C87_false",
    "CLF.C87_sixteen_partial",
    "CLF.C87_float_partial",
    "CLF.C87_metadata"
   ],
   "note": "False for 10 and 12 bits: C87_loses gives the exact law, C87_false the witness for every sample not divisible by 85. Partial: by way of 16 bits, and by way of floats without bit metadata. Images of more than 8 bits by way of deeper integers are not covered."
  },
  {
   "property": "C88",
   "status": "partial",
   "theorems": [
    "CLF.C88_partial",
    "CLF.C88_high",
    "CLF.C88_low",
    "CLF.C88_special",
    "CLF.C88_false"
   ],
   "note": "False: wrap-around above and below (C88_high, C88_low, C88_false), NaN and infinities raise. Partial: values in range."
  },
  {
   "property": "C89",
   "status": "partial",
   "theorems": [
    "CLF.C89_silent",
    "CLF.C89_single_partial",
    "CLF.C89_false"
   ],
   "note": "False with worker processes (C89_silent, C89_false). Partial: one process."
  },
  {
   "property": "C90",
   "status": "proved",
   "theorems": [
    "CLF.C90_twin"
   ],
   "note": "Spec.Twin lists what may influence colours; everything else may differ."
  },
  {
   "property": "C91",
   "status": "partial",
   "theorems": [
    "CLF.C91_partial",
    "CLF.C91_false"
   ],
   "note": "False: C91_false (matrix entry 1e-10). C91_partial: storable lists (Spec.StorableList) whose numbers survive their text form (Spec.TextExact), plain or gzipped files."
  },
  {
   "property": "C92",
   "status": "proved",
   "theorems": [
    "CLF.C92_lut1d",
    "CLF.C92_lut3d",
    "CLF.C92_matrix"
   ],
   "note": "Exact arithmetic (A.f32 = id). One theorem each for LUT1D, LUT3D and Matrix."
  },
  {
   "property": "C93",
   "status": "partial",
   "theorems": [
    "CLF.C93_partial",
    "CLF.C93_ignored",
    "CLF.C93_false"
   ],
   "note": "False: C93_ignored, C93_false (asked for 2 per side, 33 written). C93_partial: the side is that of --lutResolution1d3d1d or 33; .spi3d output."
  },
  {
   "property": "C94",
   "status": "proved",
   "theorems": [
    "CLF.C94_shapers",
    "CLF.C94_choice"
   ],
   "note": ""
  },
  {
   "property": "C95",
   "status": "partial",
   "theorems": [
    "CLF.C95_ignored",
    "CLF.C95_partial",
    "CLF.C95_false"
   ],
   "note": "False: C95_ignored, C95_false. C95_partial: 3D tables at paths whose extension is the format asked for."
  },
  {
   "property": "C96",
   "status": "proved",
   "theorems": [
    "CLF.C96_listed",
    "CLF.C96_writes",
    "CLF.C96_reads"
   ],
   "note": ""
  },
  {
   "property": "C97",
   "status": "partial",
   "theorems": [
    "CLF.C97_partial",
    "CLF.C97_spi1d_partial",
    "CLF.C97_spi3d_partial",
    "CLF.C97_false",
    "CLF.C97_near_partial"
   ],
   "note": "False: C97_false (a SPI value of 1e-10 is written as 0). C97_partial: any format, nodes that are storable and whose numbers survive. C97_spi1d_partial, C97_spi3d_partial: the whole run for SPI files of such numbers. C97_near_partial: any finite .spi1d table over [0, 1], within 0.5e-9, exact arithmetic."
  },
  {
   "property": "C98",
   "status": "partial",
   "theorems": [
    "CLF.C98_workers",
    "CLF.C98_rows_partial",
    "CLF.C98_false"
   ],
   "note": "C98_workers proves the count. False for rows on one CPU: C98_false. C98_rows_partial: at least two CPUs and two processes."
  },
  {
   "property": "C99",
   "status": "partial",
   "theorems": [
    "CLF.C99_stops",
    "CLF.C99_partial",
    "CLF.C99_false"
   ],
   "note": "False: C99_stops, C99_false. C99_partial: the empty text."
  },
  {
   "property": "C100",
   "status": "partial",
   "theorems": [
    "CLF.C100_partial",
    "CLF.C100_order_partial",
    "CLF.C100_exact_partial",
    "CLF.C100_stops",
    "CLF.C100_false"
   ],
   "note": "False: C100_false (matrix entry 1e-10). C100_partial, C100_order_partial: configurations whose converted nodes are storable with numbers that survive. C100_exact_partial: the whole run for matrices, logarithms and LUT files of such numbers. C100_stops: when nothing is written."
  },
  {
   "property": "C101",
   "status": "partial",
   "theorems": [
    "CLF.C101_patterns",
    "CLF.C101_partial",
    "CLF.C101_odd",
    "CLF.C101_false",
    "CLF.C101_single"
   ],
   "note": "On bit patterns. False for the older library with an odd number of values; partial covers everything else."
  },
  {
   "property": "C102",
   "status": "partial",
   "theorems": [
    "CLF.C102_partial",
    "CLF.C102_contrast",
    "CLF.C102_false",
    "CLF.C102_attributes",
    "CLF.C102_within"
   ],
   "note": "False for ExposureContrast, whose contrast line shows the exposure; everything else proved."
  },
  {
   "property": "C103",
   "status": "proved",
   "theorems": [
    "CLF.C103_small",
    "CLF.C103_large",
    "CLF.C103_map_small",
    "CLF.C103_map_large"
   ],
   "note": "Text of the lines, read back by the model of float()."
  },
  {
   "property": "C104",
   "status": "partial",
   "theorems": [
    "CLF.C104_partial",
    "CLF.C104_false"
   ],
   "note": "Exact condition under which printing works, with a witness for failure."
  },
  {
   "property": "C105",
   "status": "partial",
   "theorems": [
    "CLF.C105_attributes",
    "CLF.C105_values",
    "CLF.C105_dynamic",
    "CLF.C105_table",
    "CLF.C105_maps",
    "CLF.C105_partial",
    "CLF.C105_false",
    "CLF.C105_dimensions"
   ],
   "note": "False as stated: C105_false (index maps set twice: the old map stays, and processing fails) and C105_dimensions (getIndexMapDimensions always fails). C105_attributes, C105_values, C105_dynamic and C105_table hold for all call sequences; C105_maps says what the index maps are after any calls; C105_partial: index maps set once."
  },
  {
   "property": "C106",
   "status": "partial",
   "theorems": [
    "CLF.C106_partial",
    "CLF.C106_input",
    "CLF.C106_file",
    "CLF.C106_false"
   ],
   "note": "False as stated: C106_false (a table with an infinity can be written in one order only). C106_partial: the nodes are equal exactly if both output depths store integers or both do not. C106_input (input depths) and C106_file (files of finite tables) hold without that condition."
  },
  {
   "property": "C107",
   "status": "proved",
   "theorems": [
    "CLF.C107_line_ends"
   ],
   "note": "All three line ends, every permutation of the shipped formats."
  },
  {
   "property": "C108",
   "status": "partial",
   "theorems": [
    "CLF.C108_spi1d_partial",
    "CLF.C108_spi1d_ends",
    "CLF.C108_spi1d_false",
    "CLF.C108_spi3d_false",
    "CLF.C108_csp"
   ],
   "note": "False for SPI (witnesses); CSP proved."
  },
  {
   "property": "C109",
   "status": "partial",
   "theorems": [
    "CLF.C109_resampled",
    "CLF.C109_partial",
    "CLF.C109_false"
   ],
   "note": "False as stated (C109_false). C109_resampled says what the nodes read back do at every colour of the range; C109_partial is exact at the resampled positions."
  },
  {
   "property": "C110",
   "status": "partial",
   "theorems": [
    "CLF.C110_three_partial",
    "CLF.C110_one_partial",
    "CLF.C110_false",
    "CLF.C110_cube",
    "CLF.C110_limits",
    "CLF.C110_limits_cube"
   ],
   "note": "False for two components (C110_false). Three components, one component, cubes and limits proved."
  },
  {
   "property": "C111",
   "status": "proved",
   "theorems": [
    "CLF.C111_any",
    "CLF.C111_extension",
    "CLF.C111_write",
    "CLF.C111_read"
   ],
   "note": "Proved. C111_any, C111_extension: the answers of can*; C111_write, C111_read: the shipped classes do what they list."
  },
  {
   "property": "C112",
   "status": "partial",
   "theorems": [
    "CLF.C112_partial",
    "CLF.C112_absolute",
    "CLF.C112_false"
   ],
   "note": "False for search paths of several directories (C112_false). C112_partial: search paths of one directory and relative paths of any depth. C112_absolute: paths from the root."
  },
  {
   "property": "C113",
   "status": "partial",
   "theorems": [
    "CLF.C113_integers_partial",
    "CLF.C113_floats_partial",
    "CLF.C113_false",
    "CLF.C113_zero",
    "CLF.C113_declared"
   ],
   "note": "False: C113_false (bits attribute and float output), C113_zero (quality 0). C113_integers_partial, C113_floats_partial: what is written otherwise. C113_declared: agrees with the modelled image."
  },
  {
   "property": "C114",
   "status": "partial",
   "theorems": [
    "CLF.C114_halves",
    "CLF.C114_nonfinite",
    "CLF.C114_partial",
    "CLF.C114_line",
    "CLF.C114_false"
   ],
   "note": "False from 65520 on (C114_false, for every map). C114_halves: equal at every half. C114_nonfinite: infinities and NaN. C114_partial: equal to 65504 for maps whose inputs are halves. C114_line: every map, straight line between neighbouring halves."
  },
  {
   "property": "C115",
   "status": "partial",
   "theorems": [
    "CLF.C115_stored",
    "CLF.C115_partial",
    "CLF.C115_first",
    "CLF.C115_stale",
    "CLF.C115_raises",
    "CLF.C115_false"
   ],
   "note": "False: the cache is never renewed (C115_stale, C115_false). C115_stored: what is held is what was set last. C115_partial: with the cache off last, evaluation is with the values set last. C115_first, C115_raises."
  },
  {
   "property": "C116",
   "status": "partial",
   "theorems": [
    "CLF.C116_partial",
    "CLF.C116_false"
   ],
   "note": "False as stated (C116_false: white space in attributes, carriage returns, text beside children). C116_partial covers every document with plain names and allowed characters, up to exactly these losses."
  },
  {
   "property": "C117",
   "status": "partial",
   "theorems": [
    "CLF.C117_partial",
    "CLF.C117_false"
   ],
   "note": "False for all texts (C117_false). C117_partial covers every storable list whose texts are printable ASCII, tabs and line feeds."
  },
  {
   "property": "C118",
   "status": "partial",
   "theorems": [
    "CLF.C118_partial",
    "CLF.C118_kept_or_emptied",
    "CLF.C118_false"
   ],
   "note": "False (C118_false: non-ASCII text empties the file). C118_partial gives the exact condition; C118_kept_or_emptied: no other outcome."
  },
  {
   "property": "C119",
   "status": "proved",
   "theorems": [
    "CLF.C119_refused",
    "CLF.C119_readable"
   ],
   "note": "Proved for every list; C119_readable for documents with plain names, which is what the repository writes."
  },
  {
   "property": "C120",
   "status": "proved",
   "theorems": [
    "CLF.C120_line_ends"
   ],
   "note": "Proved for every text."
  },
  {
   "property": "C121",
   "status": "proved",
   "theorems": [
    "CLF.C121_namespace"
   ],
   "note": "Proved for the written form of every document with plain names and allowed characters."
  },
  {
   "property": "C122",
   "status": "proved",
   "theorems": [
    "CLF.C122_linear"
   ],
   "note": "every operation rounded to the numpy format; tables and values of float32; cubic and half-domain lookups and index maps not included"
  },
  {
   "property": "C123",
   "status": "partial",
   "theorems": [
    "CLF.C123_index_false",
    "CLF.C123_indexImage_false",
    "CLF.C123_code_false",
    "CLF.C123_image_false",
    "CLF.C123_code_partial",
    "CLF.C123_binary_partial"
   ],
   "note": "false for decreasing tables; partial: error bound, binary positions exact"
  },
  {
   "property": "C124",
   "status": "proved",
   "theorems": [
    "CLF.C124_cube",
    "CLF.C124_tetrahedral"
   ],
   "note": "accuracy bound, containment and exact lattice points for both interpolations"
  },
  {
   "property": "C125",
   "status": "proved",
   "theorems": [
    "CLF.C125_linear",
    "CLF.C125_affine",
    "CLF.C125_exact",
    "CLF.C125_permutation"
   ],
   "note": "IEEE rounding of every operation; sums below 2^120 so that nothing overflows"
  },
  {
   "property": "C126",
   "status": "partial",
   "theorems": [
    "CLF.C126_bounds",
    "CLF.C126_monotone",
    "CLF.C126_identity_partial",
    "CLF.C126_close",
    "CLF.C126_convert",
    "CLF.C126_codes_false",
    "CLF.C126_image_false"
   ],
   "note": "C126_codes_false and C126_image_false refute exactness on whole codes; bounds, order, accuracy, conversion of depths and the identity Range are proved"
  },
  {
   "property": "C127",
   "status": "proved",
   "theorems": [
    "CLF.C127_map",
    "CLF.C127_monotone",
    "CLF.C127_nonfinite",
    "CLF.C127_lut",
    "CLF.C127_cube"
   ],
   "note": "Knot inputs up to 2^500 in size; decreasing outputs are excluded (an example shows why)"
  },
  {
   "property": "C128",
   "status": "proved",
   "theorems": [
    "CLF.C128_number",
    "CLF.C128_log",
    "CLF.C128_log_reads",
    "CLF.C128_gamma",
    "CLF.C128_contrast",
    "CLF.C128_range",
    "CLF.C128_cdl",
    "CLF.C128_attributes"
   ],
   "note": ""
  },
  {
   "property": "C129",
   "status": "partial",
   "theorems": [
    "CLF.C129_false",
    "CLF.C129_false_rev",
    "CLF.C129_log_partial",
    "CLF.C129_contrast_partial"
   ],
   "note": "False for Gamma (witnesses). Proved for Log and ExposureContrast nodes."
  },
  {
   "property": "C130",
   "status": "proved",
   "theorems": [
    "CLF.C130_half",
    "CLF.C130_identity",
    "CLF.C130_subnormal_false"
   ],
   "note": "C130_subnormal_false shows that the bound on the size of entries is needed for staying between them"
  },
  {
   "property": "C131",
   "status": "partial",
   "theorems": [
    "CLF.C131_first",
    "CLF.C131_order",
    "CLF.C131_unit",
    "CLF.C131_near",
    "CLF.C131_last_partial",
    "CLF.C131_last_false"
   ],
   "note": "C131_last_false refutes that the last sample is the upper end; first sample, order, accuracy and unit interval are proved"
  },
  {
   "property": "C132",
   "status": "partial",
   "theorems": [
    "CLF.C132_object",
    "CLF.C132_gate",
    "CLF.C132_array_partial",
    "CLF.C132_refused",
    "CLF.C132_nodes",
    "CLF.C132_nodes_false",
    "CLF.C132_read_false",
    "CLF.C132_group"
   ],
   "note": "C132_nodes_false and C132_read_false refute it for nodes written and arrays read; C132_array_partial, C132_gate: encodings are not set or written; C132_nodes: such files are refused; C132_object, C132_group: getters after all call sequences"
  },
  {
   "property": "C133",
   "status": "proved",
   "theorems": [
    "CLF.C133_exact",
    "CLF.C133_chain",
    "CLF.C133_input",
    "CLF.C133_group",
    "CLF.C133_gamma",
    "CLF.C133_antilog",
    "CLF.C133_exposure"
   ],
   "note": ""
  },
  {
   "property": "C134",
   "status": "proved",
   "theorems": [
    "CLF.C134_stored"
   ],
   "note": "Decimal tables; Range bounds of at most twelve digits and floating-point input depth; RGB pixels; no bypass. Encoded tables are not covered."
  },
  {
   "property": "C135",
   "status": "proved",
   "theorems": [
    "CLF.C135_spi1d",
    "CLF.C135_spi3d"
   ],
   "note": "SPI1D files with domain 0 to 1, and SPI3D files with equal sides. The hypothesis on the text is that the parser gives such a table; C53 and C54 say so for what the writers give."
  },
  {
   "property": "C136",
   "status": "proved",
   "theorems": [
    "CLF.C136_node",
    "CLF.C136_real",
    "CLF.C136_neutral",
    "CLF.C136_codes",
    "CLF.C136_neutral_fails"
   ],
   "note": "Styles other than Fwd are covered by the exact model only (C35 and others); library powers are assumed within 2^-40 on [0,1]."
  },
  {
   "property": "C137",
   "status": "proved",
   "theorems": [
    "CLF.C137_fwd",
    "CLF.C137_rev",
    "CLF.C137_roundtrip"
   ],
   "note": "Library powers are assumed good to 2^-50 for finite results; the moncurve styles are the subject of C146."
  },
  {
   "property": "C138",
   "status": "proved",
   "theorems": [
    "CLF.C138_log",
    "CLF.C138_antilog",
    "CLF.C138_roundtrip"
   ],
   "note": "Library powers and logarithms are assumed good to 2^-50; logToLin and linToLog are the subject of C145."
  },
  {
   "property": "C139",
   "status": "partial",
   "theorems": [
    "CLF.C139_order",
    "CLF.C139_ascending_partial",
    "CLF.C139_false"
   ],
   "note": "False for rows in another order than blue fastest (C139_false); proved for complete ascending files."
  },
  {
   "property": "C140",
   "status": "partial",
   "theorems": [
    "CLF.C140_spi1d",
    "CLF.C140_spi1d_false",
    "CLF.C140_csp1d",
    "CLF.C140_csp3d_partial",
    "CLF.C140_csp3d_long",
    "CLF.C140_spi3d_false"
   ],
   "note": "False for every format (C140_spi1d, C140_csp1d, C140_csp3d_long, C140_spi3d_false): what is read instead is proved."
  },
  {
   "property": "C141",
   "status": "partial",
   "theorems": [
    "CLF.C141_spi3d_partial",
    "CLF.C141_spi1d",
    "CLF.C141_spi1d_false",
    "CLF.C141_csp",
    "CLF.C141_csp_partial",
    "CLF.C141_csp_false"
   ],
   "note": "False for SPI 1D and inside CSP tables; proved for SPI 3D and after CSP tables."
  },
  {
   "property": "C142",
   "status": "partial",
   "theorems": [
    "CLF.C142_root",
    "CLF.C142_foreign",
    "CLF.C142_partial",
    "CLF.C142_false"
   ],
   "note": "False (C142_root, C142_false); strict reads refuse foreign children."
  },
  {
   "property": "C143",
   "status": "partial",
   "theorems": [
    "CLF.C143_partial",
    "CLF.C143_read",
    "CLF.C143_false",
    "CLF.C143_empty_false"
   ],
   "note": "False for cubes with trilinear interpolation that lack part of a colour (C143_false) and for LUT1Ds whose first dimension is 0 (C143_empty_false); C143_partial covers all other lists."
  },
  {
   "property": "C144",
   "status": "proved",
   "theorems": [
    "CLF.C144_stops",
    "CLF.C144_pivot",
    "CLF.C144_compose",
    "CLF.C144_undo",
    "CLF.C144_zero_pivot"
   ],
   "note": "style linear, positive pivot, three channels per pixel; the other styles always fail (C35), pivot 0 gives NaN (C144_zero_pivot)"
  },
  {
   "property": "C145",
   "status": "proved",
   "theorems": [
    "CLF.C145_roundtrip",
    "CLF.C145_points",
    "CLF.C145_stage",
    "CLF.C145_light",
    "CLF.C145_code"
   ],
   "note": "Library powers and logarithms are assumed good to 2^-50; light whose exposure is not positive is left out of C145_code and C145_roundtrip."
  },
  {
   "property": "C146",
   "status": "proved",
   "theorems": [
    "CLF.C146_stage",
    "CLF.C146_shape",
    "CLF.C146_fwd",
    "CLF.C146_rev",
    "CLF.C146_roundtrip"
   ],
   "note": "Library powers are assumed good to 2^-50; C146_rev and C146_roundtrip are for colours on the same side of the break point as their value, the others do not come back (C31_false)."
  },
  {
   "property": "C147",
   "status": "proved",
   "theorems": [
    "CLF.C147_full",
    "CLF.C147_lower",
    "CLF.C147_upper",
    "CLF.C147_depths"
   ],
   "note": "Bounds are reals with |bound| up to M full scales; the input interval is at least M/2^8 full scales wide."
  },
  {
   "property": "C148",
   "status": "proved",
   "theorems": [
    "CLF.C148_list"
   ],
   "note": "RGB pixels; nodes as in C133, C136, C145, C146 and C147."
  },
  {
   "property": "C149",
   "status": "proved",
   "theorems": [
    "CLF.C149_exact",
    "CLF.C149_image",
    "CLF.C149_words",
    "CLF.C149_floats",
    "CLF.C149_halfs"
   ],
   "note": "RGB images of at least two rows and at least two worker processes (one row or one process fails outright, C66 and C73); integer outputs need exact values within range (others wrap, C88)."
  },
  {
   "property": "C150",
   "status": "proved",
   "theorems": [
    "CLF.C150_rev",
    "CLF.C150_free",
    "CLF.C150_roundtrip",
    "CLF.C150_forward",
    "CLF.C150_root",
    "CLF.C150_modulus",
    "CLF.C150_real"
   ],
   "note": ""
  },
  {
   "property": "C151",
   "status": "proved",
   "theorems": [
    "CLF.C151_colours",
    "CLF.C151_same",
    "CLF.C151_alpha",
    "CLF.C151_exact",
    "CLF.C151_accurate",
    "CLF.C151_alpha_false",
    "CLF.C151_colours_false",
    "CLF.C151_image"
   ],
   "note": "Matrices with more than three rows are outside: they fail on three channels (C151_colours_false). Range, ExposureContrast and bypassed nodes may change further channels (C151_alpha_false)."
  },
  {
   "property": "C152",
   "status": "proved",
   "theorems": [
    "CLF.C152_spi1d",
    "CLF.C152_spi3d",
    "CLF.C152_slope",
    "CLF.C152_texts",
    "CLF.C152_exact"
   ],
   "note": "SPI output over [0, 1]. In the 1D case the result is the list on greys: crosstalk between channels cannot be kept by a 1D table."
  },
  {
   "property": "C153",
   "status": "proved",
   "theorems": [
    "CLF.C153_lut1d",
    "CLF.C153_cube",
    "CLF.C153_tetra",
    "CLF.C153_half",
    "CLF.C153_rev",
    "CLF.C153_free",
    "CLF.C153_samples"
   ],
   "note": ""
  },
  {
   "property": "C154",
   "status": "proved",
   "theorems": [
    "CLF.C154_node",
    "CLF.C154_list",
    "CLF.C154_roundtrip",
    "CLF.C154_powers",
    "CLF.C154_roots"
   ],
   "note": ""
  },
  {
   "property": "C155",
   "status": "partial",
   "theorems": [
    "CLF.C155_lut1d_partial",
    "CLF.C155_wide_false",
    "CLF.C155_cube_false",
    "CLF.C155_list"
   ],
   "note": "False for tables of doubles and for LUT3D (witnesses C155_wide_false, C155_cube_false). Proved for LUT1D tables of float32 numbers, rising or falling, and for lists of such tables, Ranges and non-negative Matrices."
  },
  {
   "property": "C156",
   "status": "partial",
   "theorems": [
    "CLF.C156_cdl_partial",
    "CLF.C156_reverse_partial",
    "CLF.C156_gamma",
    "CLF.C156_moncurve",
    "CLF.C156_log",
    "CLF.C156_film",
    "CLF.C156_exposure",
    "CLF.C156_list",
    "CLF.C156_saturation_false",
    "CLF.C156_reverse_false",
    "CLF.C156_moncurveRev_false"
   ],
   "note": "True for the curves and parameter ranges in the theorems and for lists; proved false for CDL saturations that add colour and for the reverse monitor curve, hence partial."
  },
  {
   "property": "C157",
   "status": "proved",
   "theorems": [
    "CLF.C157_list",
    "CLF.C157_ieee",
    "CLF.C157_exact",
    "CLF.C157_matrix",
    "CLF.C157_matrix_only",
    "CLF.C157_trilinear_false",
    "CLF.C157_matrix_false"
   ],
   "note": "Proved for every rounding that leaves 0 alone, with IEEE and exact arithmetic as instances; the negations for trilinear cubes and for Matrix nodes in IEEE arithmetic have concrete witnesses."
  },
  {
   "property": "C158",
   "status": "proved",
   "theorems": [
    "CLF.C158_lookup",
    "CLF.C158_cube",
    "CLF.C158_cube_only",
    "CLF.C158_curve",
    "CLF.C158_matrix",
    "CLF.C158_affine",
    "CLF.C158_matrix_only",
    "CLF.C158_range"
   ],
   "note": "Exact arithmetic over the reals; positions and entries finite. Ranges also change the extra channels, so the Range theorem is about pixels of three channels. In IEEE arithmetic the same is false for cubes (C155_cube_false)."
  },
  {
   "property": "C159",
   "status": "proved",
   "theorems": [
    "CLF.C159_cube",
    "CLF.C159_curve",
    "CLF.C159_matrix",
    "CLF.C159_affine",
    "CLF.C159_range",
    "CLF.C159_list",
    "CLF.C159_ieee",
    "CLF.C159_moncurveRev_false"
   ],
   "note": "Exact arithmetic for single nodes and lists, IEEE for trees. The jump of the reverse monitor curve is the defect of C156 (disagreement 83): it is proved as a negative result beside the positive ones, which do not include Gamma nodes."
  },
  {
   "property": "C160",
   "status": "partial",
   "theorems": [
    "CLF.C160_partial",
    "CLF.C160_alone_partial",
    "CLF.C160_root_partial",
    "CLF.C160_false"
   ],
   "note": "False for relative references (C160_false); proved that nothing but the file and the files reached from it matter, for files without references and for references from the root."
  },
  {
   "property": "C161",
   "status": "proved",
   "theorems": [
    "CLF.C161_split",
    "CLF.C161_lut",
    "CLF.C161_ieee",
    "CLF.C161_unknown_false",
    "CLF.C161_alpha_false"
   ],
   "note": "Proved for three-channel images; further channels and unknown styles are not scaled, with witnesses."
  },
  {
   "property": "C162",
   "status": "proved",
   "theorems": [
    "CLF.C162_same",
    "CLF.C162_leaf",
    "CLF.C162_reference",
    "CLF.C162_type",
    "CLF.C162_trace",
    "CLF.C162_group",
    "CLF.C162_bypassed",
    "CLF.C162_pixel_false"
   ],
   "note": "Proved for all trees of nodes; messages printed before an error are not modelled."
  },
  {
   "property": "C163",
   "status": "proved",
   "theorems": [
    "CLF.C163_document",
    "CLF.C163_failed",
    "CLF.C163_file",
    "CLF.C163_file_failed",
    "CLF.C163_runs",
    "CLF.C163_new",
    "CLF.C163_reload_false"
   ],
   "note": "Proved for all lists, files and documents."
  },
  {
   "property": "C164",
   "status": "proved",
   "theorems": [
    "CLF.C164_list",
    "CLF.C164_row",
    "CLF.C164_returns",
    "CLF.C164_alone",
    "CLF.C164_ieee",
    "CLF.C164_exact",
    "CLF.C164_maps_false",
    "CLF.C164_matrix",
    "CLF.C164_matrix_false"
   ],
   "note": "Proved for every rounding, with IEEE and exact arithmetic as instances; Matrix nodes in exact arithmetic. ASC CDL and 3D LUT nodes are not covered. The negations for an IndexMap per channel and for Matrix nodes in IEEE arithmetic have concrete witnesses."
  }
 ]
}